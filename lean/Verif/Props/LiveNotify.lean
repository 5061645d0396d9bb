import Verif.Props.LiveTimedSync
import Verif.Core.DispTop

/-!
# C64, C65: notify_one and notify_all return, and the waiters that they find return from wait

For an arbitrary application of this layer and infinite execution; vocabulary of `Verif.Props.Live`.
-/
namespace Itc
open Core Sync
section
variable {α φ δ χ : Type} {A : App α φ δ χ} {ad : δ} {i0 : φ} {r : Run (client A)} {v j m : Nat} {L G : List (Fr α φ)}

/-- The destructors of tasks return that invoke executes, called from `F` above `L` (it destroys the queue of a thread that was unregistered in the meantime, if
    it is the last one that refers to it). -/
def Drops (r : Run (client A)) (v : Nat) (F : SFrame α φ) (L : List (Fr α φ)) : Prop :=
  ∀ t c l fn x, r.Returns v ((client A).destroy t) (.core (.destroyList c l fn x) :: .client F :: L)

/-- The global mutex is not held for ever (by init or shutdown). -/
def GlobFree (r : Run (client A)) : Prop := ∀ i, ∃ m, i ≤ m ∧ (r.st m).gOwner = none

/-- Assumptions on thread `v`, which notifies the waiters of `K` above `L`: the scheduler is strongly fair to it; init and shutdown do not hold the global
    mutex for ever; the destructors of tasks that the call executes return. -/
structure Notifies (r : Run (client A)) (v : Nat) (K : NK α) (L : List (Fr α φ)) : Prop where
  fair : r.Strong v
  glob : GlobFree r
  drop : ∀ i k l, Drops r v (.nAfter K i k l) L

/-- From the time `j` to the time `m` thread `v` was above `L`; at the time `m` its stack is `G` above `L`. -/
structure AtN (r : Run (client A)) (v : Nat) (L : List (Fr α φ)) (j m : Nat) (G : List (Fr α φ)) : Prop where
  le : j ≤ m
  stk : (r.st m).stk v = G ++ L
  exc : ((r.st m).thr v).exc = none
  suf : ∀ q, j ≤ q → q < m → ∃ pre x, (r.st q).stk v = pre ++ x :: L

theorem AtN.succ {g : Fr α φ} {G' : List (Fr α φ)} (ha : AtN r v L j m (g :: G)) (h1 : (r.st (m + 1)).stk v = G' ++ L) (h2 : ((r.st (m + 1)).thr v).exc = none) :
    AtN r v L j (m + 1) G' := by
  refine ⟨Nat.le_succ_of_le ha.le, h1, h2, fun q h3 h4 => ?_⟩
  rcases Nat.lt_or_eq_of_le (Nat.lt_succ_iff.1 h4) with h4 | rfl
  · exact ha.suf q h3 h4
  · rcases List.eq_nil_or_concat (g :: G) with h5 | ⟨pre, x, h5⟩
    · cases h5
    · exact ⟨pre, x, by rw [ha.stk, h5]; simp⟩

variable (hr : SR A ad i0 (r.st 0)) (hf : r.Strong v)
include hr hf

/-- The next step of the thread. -/
theorem AtN.next {g : Fr α φ} (ha : AtN r v L j m (g :: G))
    (hs : ∀ n, m ≤ n → ∃ m', n ≤ m' ∧ ((r.st m').stk v = g :: (G ++ L) → ((r.st m').thr v).exc = none → ∃ ch, (step (client A) (r.st m') (.th v ch)).isSome)) :
    ∃ m', m ≤ m' ∧ AtN r v L j m' (g :: G) ∧ ∃ ch, step (client A) (r.st m') (.th v ch) = some (r.st (m' + 1)) := by
  obtain ⟨m', h1, h2, ⟨ch, h3⟩, h4⟩ := r.nextF hr hf (i := m) (by rw [ha.stk]; simp) fun n hn hsame => by
    obtain ⟨m', h1, h2⟩ := hs n hn
    exact ⟨m', h1, h2 ((hsame m' (by omega)).stk.trans ha.stk) ((hsame m' (by omega)).exc.trans ha.exc)⟩
  have hok := r.ok m'
  rw [h3] at hok
  refine ⟨m', h1, ⟨Nat.le_trans ha.le h1, h2.stk.trans ha.stk, h2.exc.trans ha.exc, fun q h5 h6 => ?_⟩, ch, hok⟩
  rcases Nat.lt_or_ge q m with hq | hq
  · exact ha.suf q h5 hq
  · rcases List.eq_nil_or_concat (g :: G) with h7 | ⟨pre, x, h7⟩
    · cases h7
    · exact ⟨pre, x, by rw [(h4 q hq (by omega)).stk, ha.stk, h7]; simp⟩

/-- The next step of a client frame. -/
theorem AtN.cl {x : SFrame α φ} (hx : ∀ g, x ≠ .app g) (ha : AtN r v L j m (.client x :: G))
    (hs : ∀ m, ∃ y, sstep A.run A.destroy ((r.st m).view v) (r.st m).data.sd x ((r.st m).thr v).rv = some y) :
    ∃ m' sd a, m ≤ m' ∧ AtN r v L j m' (.client x :: G) ∧ SS A.run A.destroy ((r.st m').view v) (r.st m').data.sd ((r.st m').thr v).rv x sd a ∧
      (r.st (m' + 1)).data.sd = sd ∧ ActTo (r.st m') (r.st (m' + 1)) v (G ++ L) a := by
  obtain ⟨m', h1, h2, ch, hok⟩ := ha.next hr hf fun n _ => ⟨n, Nat.le_refl _, fun hst he => by
    obtain ⟨⟨sd, y⟩, hy⟩ := hs n
    refine ⟨.go, ?_⟩
    rw [step_th (r.reach hr n) (r.good n).1 (r.good n).2 hst he]
    simp only [stepClient]
    have : (client A).step ((r.st n).view v) (r.st n).data x ((r.st n).thr v).rv .go = some ({ (r.st n).data with sd := sd }, y) := by
      cases x <;> first | exact absurd rfl (hx _) | (simp only [client, hy])
    rw [this]
    cases y <;> rfl⟩
  cases step_cl hok with
  | cl f r' d' a _ hold hstep hdata hact =>
    rw [h2.stk] at hold
    obtain ⟨rfl, rfl⟩ : x = f ∧ G ++ L = r' := by simpa using hold
    cases client_cs hstep with
    | app g ad sa hA => exact absurd rfl (hx g)
    | sync f sd x hS => exact ⟨m', sd, a, h1, h2, hS, by rw [hdata], hact⟩
  | core f r' _ hold => rw [h2.stk] at hold; cases hold
  | fin he hold => rw [h2.stk] at he; cases he
  | _ => have := h2.exc; simp_all

/-- The next step of a frame of the core. -/
theorem AtN.core {F : CF (STask α) (SFrame α φ)} (ha : AtN r v L j m (.core F :: G))
    (hs : ∀ n, m ≤ n → ∃ m', n ≤ m' ∧ (stepCore (client A) (r.st m') v F (G ++ L) .go).isSome) :
    ∃ m' ch, m ≤ m' ∧ AtN r v L j m' (.core F :: G) ∧ stepCore (client A) (r.st m') v F (G ++ L) ch = some (r.st (m' + 1)) := by
  obtain ⟨m', h1, h2, ch, hok⟩ := ha.next hr hf fun n hn => by
    obtain ⟨m', h1, h2⟩ := hs n hn
    exact ⟨m', h1, fun hst he => ⟨.go, by rw [step_th (r.reach hr m') (r.good m').1 (r.good m').2 hst he]; exact h2⟩⟩
  rw [step_th (r.reach hr m') (r.good m').1 (r.good m').2 h2.stk h2.exc] at hok
  exact ⟨m', ch, h1, h2, hok⟩

omit hr hf in
theorem stk_ret' (s : SSt α φ δ) (t : Nat) (rest : List (Fr α φ)) (fn : Fn) (x : Val) : (s.ret t rest fn x).stk t = rest ∧ ((s.ret t rest fn x).thr t).exc = (s.thr t).exc := by
  simp [St.ret, St.stk]

omit hr hf in
theorem stk_set' (s : SSt α φ δ) (t : Nat) (st : List (Fr α φ)) : (s.setStk t st).stk t = st ∧ ((s.setStk t st).thr t).exc = (s.thr t).exc := by
  simp [St.setStk, St.stk]

/-- A trivial task. -/
theorem AtN.noop {x : Val} (ha : AtN r v L j m (.client (.done x) :: G)) : ∃ m', m < m' ∧ AtN r v L j m' G := by
  obtain ⟨m', sd, a, h1, h2, h3, h4, h5⟩ := ha.cl hr hf (by simp) fun m => ⟨_, rfl⟩
  cases h3
  exact ⟨m' + 1, by omega, h2.succ h5.1 h5.2.1⟩

theorem AtN.retv {o : Option Nat} (ha : AtN r v L j m (.core (.retv o) :: G)) : ∃ m', m < m' ∧ AtN r v L j m' G := by
  obtain ⟨m', ch, h1, h2, h3⟩ := ha.core hr hf fun n _ => ⟨n, Nat.le_refl _, by cases o <;> rfl⟩
  refine ⟨m' + 1, by omega, ?_⟩
  cases o <;> (simp only [stepCore, Option.some.injEq] at h3; refine h2.succ ?_ ?_ <;> rw [← h3])
  all_goals first | exact (stk_ret' ..).1 | exact (stk_ret' ..).2.trans h2.exc

/-- The destruction of a queue. -/
theorem AtN.drop {c : Nat} {F : SFrame α φ} {fn : Fn} {x : Val} (h : Drops r v F L) : ∀ (l : List (STask α)) {m : Nat},
    AtN r v L j m [.core (.destroyList c l fn x), .client F] → ∃ m', m < m' ∧ AtN r v L j m' [.client F] := by
  intro l
  induction l with
  | nil =>
    intro m ha
    obtain ⟨m', ch, h1, h2, h3⟩ := ha.core hr hf fun n _ => ⟨n, Nat.le_refl _, rfl⟩
    simp only [stepCore, Option.some.injEq] at h3
    refine ⟨m' + 1, by omega, h2.succ ?_ ?_⟩ <;> rw [← h3]
    · exact (stk_ret' ..).1
    · exact (stk_ret' ..).2.trans h2.exc
  | cons t l ih =>
    intro m ha
    obtain ⟨m', ch, h1, h2, h3⟩ := ha.core hr hf fun n _ => ⟨n, Nat.le_refl _, rfl⟩
    simp only [stepCore, Option.some.injEq] at h3
    have h4 : AtN r v L j (m' + 1) [.client ((client A).destroy t), .core (.destroyList c l fn x), .client F] := by
      refine h2.succ ?_ ?_ <;> rw [← h3]
      · exact (stk_set' ..).1
      · exact (stk_set' ..).2.trans h2.exc
    obtain ⟨m2, h5, h6, h7, h8⟩ := h t c l fn x _ h4.stk h4.exc
    obtain ⟨m3, h9, h10⟩ := ih (m := m2) ⟨by have := h4.le; omega, h6, h7, fun q h9 h10 => by
      rcases Nat.lt_or_ge q (m' + 1) with hq | hq
      · exact h4.suf q h9 hq
      · obtain ⟨pre, hp⟩ := h8 q hq (by omega)
        exact ⟨pre ++ [.core (.destroyList c l fn x)], .client F, by rw [← hp]; simp⟩⟩
    exact ⟨m3, by omega, h10⟩

/-- invoke, of a task the destructor of which returns if it executes it. -/
theorem AtN.invoke {F : SFrame α φ} {i : Nat} {k : STask α} {own : Bool} (hg : GlobFree r) (hd : Drops r v F L)
    (hk : own = true → ∀ m G, AtN r v L j m (.client ((client A).destroy k) :: G) → ∃ m', m < m' ∧ AtN r v L j m' G)
    (h10 : AtN r v L j m [.core (.invLook i k own), .client F]) : ∃ m', m < m' ∧ AtN r v L j m' [.client F] := by
  obtain ⟨m4, ch, h11, h2, h3⟩ := h10.core hr hf fun n hn => by
    obtain ⟨m', h1, h2⟩ := hg n
    refine ⟨m', h1, ?_⟩
    simp only [stepCore, h2, Option.isSome_none, Bool.false_eq_true, if_false]
    repeat' split
    all_goals rfl
  simp only [stepCore] at h3
  have hrefuse : (if own = true then some (((r.st m4).ev (.refused v i k)).setStk v (.client ((client A).destroy k) :: .core (.retv (some i)) :: ([.client F] ++ L)))
      else some (((r.st m4).ev (.refused v i k)).ret v ([.client F] ++ L) (.invoke i) (.bool false))) = some (r.st (m4 + 1)) → ∃ m', m < m' ∧ AtN r v L j m' [.client F] := by
    intro h3
    split at h3
    · rename_i ho
      have h3 := Option.some.inj h3
      have h12 : AtN r v L j (m4 + 1) [.client ((client A).destroy k), .core (.retv (some i)), .client F] := by
        refine h2.succ ?_ ?_ <;> rw [← h3]
        · exact (stk_set' ..).1
        · exact (stk_set' ..).2.trans h2.exc
      obtain ⟨m6, h15, h16⟩ := hk ho _ _ h12
      obtain ⟨m7, h17, h18⟩ := h16.retv hr hf
      exact ⟨m7, by omega, h18⟩
    · have h3 := Option.some.inj h3
      refine ⟨m4 + 1, by omega, h2.succ ?_ ?_⟩ <;> rw [← h3]
      · exact (stk_ret' ..).1
      · exact (stk_ret' ..).2.trans h2.exc
  split at h3
  · exact hrefuse h3
  split at h3
  · cases h3
  split at h3
  · exact hrefuse h3
  · rename_i c hc
    have h3 := Option.some.inj h3
    have h12 : AtN r v L j (m4 + 1) [.core (.invPush c k), .client F] := by
      refine h2.succ ?_ ?_ <;> rw [← h3]
      · exact (stk_set' ..).1
      · exact (stk_set' ..).2.trans h2.exc
    clear h2 h3
    obtain ⟨m5, ch, h13, h2, h3⟩ := h12.core hr hf fun n _ => ⟨n, Nat.le_refl _, by simp only [stepCore]; split <;> rfl⟩
    simp only [stepCore] at h3
    split at h3
    · have h3 := Option.some.inj h3
      have := (r.good (m5 + 1)).1
      rw [← h3] at this
      cases this
    have h3 := Option.some.inj h3
    have h14 : ∃ fn x, AtN r v L j (m5 + 1) [.core (.release c fn x), .client F] := by
      refine ⟨.invoke ((r.st m5).ctxs c).id, .bool true, h2.succ ?_ ?_⟩ <;> rw [← h3]
      · exact (stk_set' ..).1
      · exact (stk_set' ..).2.trans h2.exc
    obtain ⟨fn, x, h14⟩ := h14
    clear h2 h3
    obtain ⟨m6, ch, h15, h2, h3⟩ := h14.core hr hf fun n _ => ⟨n, Nat.le_refl _, by simp only [stepCore]; split <;> rfl⟩
    simp only [stepCore] at h3
    split at h3
    · have h3 := Option.some.inj h3
      have h16 : AtN r v L j (m6 + 1) [.core (.destroyList c ((r.st m6).ctxs c).pend fn x), .client F] := by
        refine h2.succ ?_ ?_ <;> rw [← h3]
        · exact (stk_set' ..).1
        · exact (stk_set' ..).2.trans h2.exc
      obtain ⟨m7, h17, h18⟩ := AtN.drop hr hf hd _ h16
      exact ⟨m7, by omega, h18⟩
    · have h3 := Option.some.inj h3
      refine ⟨m6 + 1, by omega, h2.succ ?_ ?_⟩ <;> rw [← h3]
      · exact (stk_ret' ..).1
      · exact (stk_ret' ..).2.trans h2.exc

omit hf in
/-- One waiter. -/
theorem AtN.one {K : NK α} {i k : Nat} {l : List (Nat × Nat)} (h : Notifies r v K L) (ha : AtN r v L j m [.client (.nLoop K ((i, k) :: l))]) :
    ∃ m', m < m' ∧ AtN r v L j m' [.client (.nLoop K l)] ∧ (i ≠ 0 → ∃ m1, (r.st m1).data.sd.tok k = true) := by
  obtain ⟨m1, sd, a, h1, h2, h3, h4, h5⟩ := ha.cl hr h.fair (by simp) fun m => by
    simp only [sstep]; split <;> exact ⟨_, rfl⟩
  cases h3 with
  | nSkip => exact ⟨m1 + 1, by omega, h2.succ (G' := [_]) h5.1 h5.2.1, fun hi => absurd rfl hi⟩
  | nSig _ _ _ _ hi =>
  have htok : (r.st (m1 + 1)).data.sd.tok k = true := by rw [h4]; simp
  suffices hk : ∃ m', m1 < m' ∧ AtN r v L j m' [.client (.nLoop K l)] by
    obtain ⟨m', h6, h7⟩ := hk
    exact ⟨m', by omega, h7, fun _ => ⟨_, htok⟩⟩
  have h6 : AtN r v L j (m1 + 1) [.client (.nCall K i k l)] := h2.succ (G' := [_]) h5.1 h5.2.1
  clear h4 h5 htok
  obtain ⟨m2, sd, a, h7, h2, h3, h4, h5⟩ := h6.cl hr h.fair (by simp) fun m => ⟨_, rfl⟩
  cases h3
  have h8 : AtN r v L j (m2 + 1) [.core (.dispatch i .noop), .client (.nAfter K i k l)] := h2.succ (G' := [_, _]) h5.1 h5.2.1
  clear h4 h5
  suffices hk : ∃ m', m2 < m' ∧ AtN r v L j m' [.client (.nAfter K i k l)] by
    obtain ⟨m3, h9, h10⟩ := hk
    obtain ⟨m4, sd, a, h11, h2, h3, h4, h5⟩ := h10.cl hr h.fair (by simp) fun m => ⟨_, rfl⟩
    cases h3
    exact ⟨m4 + 1, by omega, h2.succ (G' := [_]) h5.1 h5.2.1⟩
  obtain ⟨m3, ch, h9, h2, h3⟩ := h8.core hr h.fair fun n _ => ⟨n, Nat.le_refl _, by simp only [stepCore]; split <;> rfl⟩
  simp only [stepCore] at h3
  split at h3
  · have h3 := Option.some.inj h3
    have h10 : AtN r v L j (m3 + 1) [.client (.done .unit), .core (.dispRan .noop), .client (.nAfter K i k l)] := by
      refine h2.succ ?_ ?_ <;> rw [← h3]
      · exact (stk_set' ..).1
      · exact (stk_set' ..).2.trans h2.exc
    obtain ⟨m4, h11, h12⟩ := h10.noop hr h.fair
    obtain ⟨m5, ch, h13, h2, h3⟩ := h12.core hr h.fair fun n _ => ⟨n, Nat.le_refl _, rfl⟩
    simp only [stepCore, Option.some.injEq] at h3
    have h14 : AtN r v L j (m5 + 1) [.client (.done .unit), .core (.retv none), .client (.nAfter K i k l)] := by
      refine h2.succ ?_ ?_ <;> rw [← h3]
      · exact (stk_set' ..).1
      · exact (stk_set' ..).2.trans h2.exc
    obtain ⟨m6, h15, h16⟩ := h14.noop hr h.fair
    obtain ⟨m7, h17, h18⟩ := h16.retv hr h.fair
    exact ⟨m7, by omega, h18⟩
  · have h3 := Option.some.inj h3
    have h10 : AtN r v L j (m3 + 1) [.core (.invLook i .noop true), .client (.nAfter K i k l)] := by
      refine h2.succ ?_ ?_ <;> rw [← h3]
      · exact (stk_set' ..).1
      · exact (stk_set' ..).2.trans h2.exc
    obtain ⟨m4, h11, h12⟩ := AtN.invoke (k := .noop) hr h.fair h.glob (h.drop i k l) (fun _ _ _ h' => AtN.noop (x := .unit) hr h.fair h') h10
    exact ⟨m4, by omega, h12⟩

omit hf in
/-- All waiters. -/
theorem AtN.all {K : NK α} (h : Notifies r v K L) : ∀ (l : List (Nat × Nat)) {m : Nat}, AtN r v L j m [.client (.nLoop K l)] →
    ∃ m', m ≤ m' ∧ AtN r v L j m' [.client (.nLoop K [])] ∧ ∀ x ∈ l, x.1 ≠ 0 → ∃ m1, (r.st m1).data.sd.tok x.2 = true := by
  intro l
  induction l with
  | nil => exact fun ha => ⟨_, Nat.le_refl _, ha, by simp⟩
  | cons x l ih =>
    intro m ha
    obtain ⟨m1, h1, h2, h3⟩ := AtN.one hr h ha
    obtain ⟨m2, h4, h5, h6⟩ := ih h2
    refine ⟨m2, by omega, h5, fun y hy => ?_⟩
    rcases List.mem_cons.1 hy with rfl | hy
    · exact h3
    · exact h6 y hy

omit hf in
theorem AtN.cv {n : Nat} (h : Notifies r v (.cv n) L) (ha : AtN r v L j m [.client (.nLoop (.cv n) [])]) : ∃ m', m < m' ∧ AtN r v L j m' [] := by
  obtain ⟨m', sd, a, h1, h2, h3, h4, h5⟩ := ha.cl hr h.fair (by simp) fun m => ⟨_, rfl⟩
  cases h3
  exact ⟨m' + 1, by omega, h2.succ (G' := []) h5.1 h5.2.1⟩

end

/-! ## The wake-up arrives -/

section
variable {α φ δ χ : Type} {A : App α φ δ χ} {ad : δ} {i0 : φ} {r : Run (client A)} {s s' : SSt α φ δ}

theorem Sync.Dlvr.exc (hr : SR A ad i0 s) {v i k c : Nat} (hd : Dlvr s v i k c) : (s.thr v).exc = none := by
  cases hd with
  | call K l rest h =>
    by_contra he
    exact (stk_ok hr).exc v _ _ he h trivial
  | disp K l rest h => exact (disp_top hr (pre := []) h trivial).2
  | look K l rest h => exact (disp_top hr (pre := []) h trivial).2
  | push K l rest h =>
    by_contra he
    have := EInv.reach hr v he _ (by rw [h]; exact List.mem_cons_self)
    cases this

/-- How far it is from the arrival of the wake-up. -/
def dRank : List (Fr α φ) → Nat
  | .client (.nCall _ _ _ _) :: _ => 4
  | .core (.dispatch _ _) :: _ => 3
  | .core (.invLook _ _ _) :: _ => 2
  | .core (.invPush _ _) :: _ => 1
  | _ => 0

theorem dlvr_rank (hr : SR A ad i0 s) {u v c k : Nat} {ch : Ch χ} (hub : s.ub = false) (hterm : s.term = false)
    (hs : Core.step (client A) s (.th v ch) = some s') (hne : u ≠ v) (hloc : s.loc u = some c) (hreg : InReg s c) (hd : Dlvr s v (s.ctxs c).id k c) :
    Dlvr s' v (s.ctxs c).id k c ∧ dRank (s'.stk v) < dRank (s.stk v) ∨ (s'.ctxs c).pend ≠ [] := by
  have hexc := hd.exc hr
  have hwf := WF.reach hr
  have hmem := hwf.inReg_iff.1 hreg
  have hi0 : (s.ctxs c).id ≠ 0 := by
    have := hwf.ids c (hwf.loc u c hloc).1
    omega
  have hid : s.getId v ≠ (s.ctxs c).id := fun h => hne (id_uniq hwf hloc h).symm
  have halive : (s.ctxs c).life = .alive := (hwf.mem _ _ hmem).2.2
  cases hd with
  | call K l rest h =>
    cases step_cl hs with
    | cl f r' d' a _ hold hstep hdata hact =>
      rw [hold] at h
      obtain ⟨rfl, rfl⟩ : f = .nCall K (s.ctxs c).id k l ∧ r' = rest := by simpa using h
      cases client_cs hstep with
      | sync f sd a hS => cases hS; exact .inl ⟨.disp _ _ _ hact.1, by rw [hact.1, hold]; exact Nat.lt_succ_self _⟩
    | core f r' _ hold => rw [hold] at h; cases h
    | fin he hold => rw [h] at he; cases he
    | _ => simp_all
  | disp K l rest h =>
    rw [step_th hr hub hterm h hexc] at hs
    simp only [stepCore, if_neg hid, Option.some.injEq] at hs
    subst hs
    have h1 := stk_setStk' s v (.core (.invLook (s.ctxs c).id .noop true) :: .client (.nAfter K (s.ctxs c).id k l) :: rest)
    exact .inl ⟨.look _ _ _ h1, by rw [h1, h]; exact Nat.lt_succ_self _⟩
  | look K l rest h =>
    rw [step_th hr hub hterm h hexc] at hs
    simp only [stepCore, if_neg hi0, hwf.find_of_mem hmem] at hs
    split at hs
    · contradiction
    obtain rfl := Option.some.inj hs
    have h1 := stk_setStk' (s.hold c v) v (.core (.invPush c .noop) :: .client (.nAfter K (s.ctxs c).id k l) :: rest)
    exact .inl ⟨.push _ _ _ h1, by rw [h1, h]; exact Nat.lt_succ_self _⟩
  | push K l rest h =>
    rw [step_th hr hub hterm h hexc] at hs
    simp only [stepCore, halive, ne_eq, not_true_eq_false, if_false, Option.some.injEq] at hs
    subst hs
    right
    simp [St.setStk, St.ev, St.setCtx, Ctx.pend]

/-- The deliverer can make a step again and again. -/
theorem dlvr_can (hr : SR A ad i0 s) {v i k c : Nat} (hub : s.ub = false) (hterm : s.term = false) (hfree : s.gOwner = none) (hd : Dlvr s v i k c) :
    ∃ ch, (Core.step (client A) s (.th v ch)).isSome := by
  have hexc := hd.exc hr
  refine ⟨.go, ?_⟩
  cases hd with
  | call K l rest h => rw [step_th hr hub hterm h hexc]; rfl
  | disp K l rest h => rw [step_th hr hub hterm h hexc]; simp only [stepCore]; split <;> rfl
  | look K l rest h =>
    rw [step_th hr hub hterm h hexc]
    simp only [stepCore, hfree, Option.isSome_none, Bool.false_eq_true, if_false, if_true]
    repeat' split
    all_goals rfl
  | push K l rest h => rw [step_th hr hub hterm h hexc]; simp only [stepCore]; split <;> rfl

/-- The wake-up arrives, while the waiter stays registered. -/
theorem dlvr_ends (hr : SR A ad i0 (r.st 0)) {u v c k id N : Nat} (hf : r.Strong v) (hg : ∀ i, ∃ m, i ≤ m ∧ (r.st m).gOwner = none) (hne : u ≠ v)
    (hu : ∀ m, N ≤ m → (r.st m).loc u = some c ∧ InReg (r.st m) c ∧ ((r.st m).ctxs c).id = id) :
    ∀ q n, N ≤ n → dRank ((r.st n).stk v) ≤ q → Dlvr (r.st n) v id k c → ∃ m, n ≤ m ∧ ((r.st m).ctxs c).pend ≠ [] := by
  intro q
  induction q with
  | zero =>
    intro n _ h1 hd
    cases hd <;> simp_all [dRank]
  | succ q ih =>
    intro n hn h1 hd
    obtain ⟨m, h2, h3, ⟨ch, h4⟩, -⟩ := r.nextF hr hf (i := n) hd.ne fun n' hn' hsame => by
      obtain ⟨m, h2, h3⟩ := hg n'
      exact ⟨m, h2, dlvr_can (r.reach hr m) (r.good m).1 (r.good m).2 h3 (hd.move (hsame m (by omega)).stk)⟩
    have hok := r.ok m
    rw [h4] at hok
    obtain ⟨h5, h6, rfl⟩ := hu m (by omega)
    rcases dlvr_rank (r.reach hr m) (r.good m).1 (r.good m).2 hok hne h5 h6 (hd.move h3.stk) with ⟨h7, h8⟩ | h7
    · rw [h3.stk] at h8
      obtain ⟨m', h9, h10⟩ := ih (m + 1) (by omega) (by omega) h7
      exact ⟨m', by omega, h10⟩
    · exact ⟨m + 1, by omega, h7⟩

end

/-! ## The waiter -/

section
variable {α φ δ χ : Type} {A : App α φ δ χ} {ad : δ} {i0 : φ} {r : Run (client A)} {u c n q j m id k : Nat} {f x : SFrame α φ} {rest : List (Fr α φ)}

/-- Assumptions on an execution in which thread `u`, registered as `c`, calls condition_variable::wait of `n` with the lock `q` from `f` above `rest`: the scheduler
    is strongly fair to it; others do not hold the lock for ever while `u` wants to have it back; the tasks that the wait executes return, as do
    their destructors, and do not keep the lock. -/
structure CvWaits (r : Run (client A)) (u c n q : Nat) (f : SFrame α φ) (rest : List (Fr α φ)) : Prop where
  fair : r.Strong u
  lock : Frees r u (.user q) (.client f :: rest)
  keep : ∀ i k, Leaves r u (.user q) (.client (.swAfter (.cv n q) i k) :: .client f :: rest)
  run : ∀ i k t b, r.Returns u ((client A).run t) (.core (.ran c t (.toWait b)) :: .client (.swAfter (.cv n q) i k) :: .client f :: rest)
  drop : ∀ i k t b, r.Returns u ((client A).destroy t) (.core (.freed c t (.toWait b)) :: .client (.swAfter (.cv n q) i k) :: .client f :: rest)

/-- The first return to a frame. -/
theorem first_back (hr : SR A ad i0 (r.st 0)) {i n : Nat} {g : SFrame α φ} {y : Fr α φ} {L : List (Fr α φ)} (hc : ∀ e, (client A).onThrow g e = none)
    (hgo : ∀ v d rv d' a, SS A.run A.destroy v d rv g d' a → ∃ y, a = .goto y ∧ y ≠ g) (hx : ∀ g', g ≠ .app g')
    (hi : (r.st i).stk u = y :: .client g :: L) (hin : i ≤ n) (hs : ∀ q, i ≤ q → q ≤ n → .client g :: L <:+ (r.st q).stk u)
    (hn : (r.st n).stk u = .client g :: L) (he : ((r.st n).thr u).exc = none) :
    ∃ m, m ≤ n ∧ r.Ends u (.client g :: L) i m ∧ ((r.st m).thr u).exc = none := by
  classical
  have hex : ∃ m, i ≤ m ∧ (r.st m).stk u = .client g :: L := ⟨n, hin, hn⟩
  obtain ⟨h1, h2⟩ := Nat.find_spec hex
  have hmin : ∀ q, i ≤ q → q < Nat.find hex → (r.st q).stk u ≠ .client g :: L := fun q h3 h4 h5 => Nat.find_min hex h4 ⟨h3, h5⟩
  have hle : Nat.find hex ≤ n := Nat.find_min' hex ⟨hin, hn⟩
  generalize Nat.find hex = m0 at h1 h2 hmin hle
  have hlen : ∀ q, i ≤ q → q ≤ n → L.length + 1 ≤ ((r.st q).stk u).length := fun q h3 h4 => by
    have := (hs q h3 h4).length_le
    simpa using this
  refine ⟨m0, hle, ⟨?_, h2, fun q h3 h4 => ?_⟩, ?_⟩
  · rcases Nat.lt_or_eq_of_le h1 with h3 | rfl
    · exact h3
    · rw [hi] at h2
      have := congrArg List.length h2
      simp at this
  · obtain ⟨pre, hp⟩ := hs q h3 (by omega)
    rcases List.eq_nil_or_concat pre with rfl | ⟨pre, z, rfl⟩
    · exact absurd hp.symm (hmin q h3 h4)
    · exact ⟨pre, z, by rw [← hp]; simp⟩
  · have key : ∀ d, m0 + d ≤ n → Same u (r.st m0) (r.st (m0 + d)) := by
      intro d
      induction d with
      | zero => exact fun _ => .refl _ _
      | succ d ih =>
        intro hd
        have h3 := ih (by omega)
        have h4 := h3.stk.trans h2
        by_cases hl : ∃ ch, r.lab (m0 + d) = .th u ch
        · exfalso
          obtain ⟨ch, hl⟩ := hl
          have hok := r.ok (m0 + d)
          rw [hl] at hok
          have hsuf := hs (m0 + d + 1) (by omega) hd
          have hlen := hlen (m0 + d + 1) (by omega) hd
          by_cases hexc : ((r.st (m0 + d)).thr u).exc = none
          · obtain ⟨a, h5, h6⟩ := own_ss h4 hok hexc hx
            obtain ⟨z, rfl, hz⟩ := hgo _ _ _ _ _ h5
            rw [h6.1] at hsuf
            have := hsuf.eq_of_length (by simp)
            simp at this
            exact hz this.symm
          · cases step_cl hok with
            | cl f r' d' a h5 => exact hexc h5
            | core f r' h5 => exact hexc h5
            | halt e _ _ h5 => have := (r.good (m0 + d + 1)).2; rw [h5] at this; cases this
            | task e f k' r0 _ hold => rw [h4] at hold; cases hold
            | cpop e f r0 _ hold => rw [h4] at hold; cases hold
            | «catch» e g1 g' r0 _ hold hg =>
              rw [h4] at hold
              obtain ⟨rfl, rfl⟩ : g = g1 ∧ L = r0 := by simpa using hold
              rw [hc] at hg; cases hg
            | pop e g1 r0 _ hold hg hst' =>
              rw [h4] at hold
              obtain ⟨rfl, rfl⟩ : g = g1 ∧ L = r0 := by simpa using hold
              rw [hst'] at hlen; omega
            | fin hold => rw [h4] at hold; cases hold
        · push Not at hl
          exact h3.trans (same_step (r.reach hr _) (r.ok _) (by rw [h4]; simp) hl)
    obtain ⟨d, rfl⟩ := Nat.exists_eq_add_of_le hle
    exact (key d (Nat.le_refl _)).exc.symm.trans he

/-- Thread `u` is in the wait that has begun by the time `j`, at the place `x`; the token of this wait is `k`. -/
structure AtC (r : Run (client A)) (u j : Nat) (L : List (Fr α φ)) (m : Nat) (x : SFrame α φ) (k : Nat) : Prop where
  le : j ≤ m
  stk : (r.st m).stk u = .client x :: L
  exc : ((r.st m).thr u).exc = none
  suf : ∀ p, j ≤ p → p ≤ m → ∃ pre g, (r.st p).stk u = pre ++ .client g :: L ∧ ∀ S i k', wtok g = some (S, i, k') → k' = k

structure CEnv (r : Run (client A)) (ad : δ) (i0 : φ) (u c n q j id : Nat) (f : SFrame α φ) (rest : List (Fr α φ)) : Prop extends CvWaits r u c n q f rest where
  hr : SR A ad i0 (r.st 0)
  above : Above u c (.client f :: rest) (r.st j)
  reg : .registered c id u ∈ (r.st j).log
  unr : ∀ j id n, .unregistered c id n ∉ (r.st j).log

theorem AtC.succ {L : List (Fr α φ)} {y : SFrame α φ} (ha : AtC r u j L m x k) (h1 : (r.st (m + 1)).stk u = .client y :: L)
    (h2 : ((r.st (m + 1)).thr u).exc = none) (hy : ∀ S i k', wtok y = some (S, i, k') → k' = k) : AtC r u j L (m + 1) y k := by
  refine ⟨Nat.le_succ_of_le ha.le, h1, h2, fun q h3 h4 => ?_⟩
  rcases Nat.lt_or_eq_of_le h4 with h4 | rfl
  · exact ha.suf q h3 (by omega)
  · exact ⟨[], _, h1, hy⟩

theorem AtC.back {L : List (Fr α φ)} (ha : AtC r u j L m x k) (h1 : (r.st (m + 1)).stk u = L)
    (h2 : ((r.st (m + 1)).thr u).exc = none) : Back r u j L :=
  ⟨m + 1, ⟨by have := ha.le; omega, h1, fun q h3 h4 => by obtain ⟨pre, g, h5, -⟩ := ha.suf q h3 (by omega); exact ⟨pre, _, h5⟩⟩, h2⟩

section
variable (h : CEnv r ad i0 u c n q j id f rest)
include h

theorem CEnv.at {m : Nat} (hj : j ≤ m) (hs : ∀ m', j ≤ m' → m' ≤ m → ∃ pre y, (r.st m').stk u = pre ++ y :: .client f :: rest) :
    (r.st m).loc u = some c ∧ InReg (r.st m) c ∧ ((r.st m).ctxs c).id = id ∧ (r.st m).getId u = id ∧ id ≠ 0 := by
  obtain ⟨-, -, -, hloc⟩ := r.above h.hr hj h.reg h.unr h.above fun m' h1 h2 => pre_suf (hs m' h1 h2)
  have hin := r.inReg h.hr (r.logm hj h.reg) (h.unr m)
  have hid := ((LInv.reach (r.reach h.hr m)).regd c id u).1 (r.logm hj h.reg)
  have hw := WF.reach (r.reach h.hr m)
  have h4 := hw.ids c (hw.loc u c hloc).1
  refine ⟨hloc, hin, hid.2.1, ?_, by omega⟩
  have : ((r.st m).thr u).loc = some c := hloc
  simp [St.getId, this, hid.2.1]

/-- The next step of the call. -/
theorem CEnv.next (hx : ∀ g, x ≠ .app g) (ha : AtC r u j (.client f :: rest) m x k)
    (hs : ∀ n, m ≤ n → (∀ m', m ≤ m' → (r.st m').stk u = .client x :: .client f :: rest ∧ ((r.st m').thr u).exc = none) →
      ∃ m', n ≤ m' ∧ ∃ y, sstep A.run A.destroy ((r.st m').view u) (r.st m').data.sd x ((r.st m').thr u).rv = some y) :
    ∃ m' sd a, m ≤ m' ∧ AtC r u j (.client f :: rest) m' x k ∧ SS A.run A.destroy ((r.st m').view u) (r.st m').data.sd ((r.st m').thr u).rv x sd a ∧
      (r.st (m' + 1)).data.sd = sd ∧ ActTo (r.st m') (r.st (m' + 1)) u (.client f :: rest) a := by
  obtain ⟨m', h1, h2, ⟨ch, h3⟩, h4⟩ := r.nextF h.hr h.fair (i := m) (by rw [ha.stk]; simp) fun n hn hsame => by
    obtain ⟨m', h1, ⟨sd, y⟩, hy⟩ := hs n hn fun m' hm => ⟨(hsame m' hm).stk.trans ha.stk, (hsame m' hm).exc.trans ha.exc⟩
    refine ⟨m', h1, .go, ?_⟩
    rw [step_th (r.reach h.hr m') (r.good m').1 (r.good m').2 ((hsame m' (by omega)).stk.trans ha.stk) ((hsame m' (by omega)).exc.trans ha.exc)]
    simp only [stepClient]
    have : (client A).step ((r.st m').view u) (r.st m').data x ((r.st m').thr u).rv .go = some ({ (r.st m').data with sd := sd }, y) := by
      cases x <;> first | exact absurd rfl (hx _) | (simp only [client, hy])
    rw [this]
    cases y <;> rfl
  have hA : AtC r u j (.client f :: rest) m' x k := by
    refine ⟨Nat.le_trans ha.le h1, h2.stk.trans ha.stk, h2.exc.trans ha.exc, fun q ha' hb => ?_⟩
    rcases Nat.le_total q m with hq | hq
    · exact ha.suf q ha' hq
    · obtain ⟨pre, g, h5, h6⟩ := ha.suf m ha.le (Nat.le_refl _)
      exact ⟨pre, g, by rw [(h4 q hq hb).stk, h5], h6⟩
  have hok := r.ok m'
  rw [h3] at hok
  cases step_cl hok with
  | cl f r' d' a _ hold hstep hdata hact =>
    rw [hA.stk] at hold; cases hold
    cases client_cs hstep with
    | app g ad sa hA => exact absurd rfl (hx g)
    | sync f sd x hS => exact ⟨m', sd, a, h1, hA, hS, by rw [hdata], hact⟩
  | core f r' _ hold => rw [hA.stk] at hold; cases hold
  | fin he hold => rw [hA.stk] at he; cases he
  | _ => have := hA.exc; simp_all

/-- The places of a wait, with a bound on what is left to do once it is signalled. -/
inductive PhC (n q id k : Nat) : Nat → SFrame α φ → Prop
  | swLoop : PhC n q id k 2 (.swLoop (.cv n q) id k)
  | swChk : PhC n q id k 4 (.swChk (.cv n q) id k)
  | swBefore : PhC n q id k 3 (.swBefore (.cv n q) id k)
  | swRem (y : Why) : PhC n q id k 1 (.swRem (.cv n q) id k y)

/-- The wait is blocked for ever. -/
def Stuck (r : Run (client A)) (ad : δ) (i0 : φ) (u c n q id : Nat) (f : SFrame α φ) (rest : List (Fr α φ)) (j k : Nat) : Prop :=
  ∃ m i dl, Calm r { sd := {}, ad := ad } (.app i0) u c (.swAfter (.cv n q) id k) (.client f :: rest) ∧
    Above u c (.client (.swAfter (.cv n q) id k) :: .client f :: rest) (r.st i) ∧
    (∀ m', m ≤ m' → Round r u c (.swAfter (.cv n q) id k) (.client f :: rest) i m' [.core (.parked c dl)]) ∧
    ∀ p, j ≤ p → ∃ pre g, (r.st p).stk u = pre ++ .client g :: .client f :: rest ∧ ∀ S i k', wtok g = some (S, i, k') → k' = k

/-- A step of the wait: it returns, or gets to its next place; which is nearer to the end if it is signalled; or it is blocked for ever. -/
theorem CEnv.one {d : Nat} (ha : AtC r u j (.client f :: rest) m x k) (hx : PhC n q id k d x) :
    Back r u j (.client f :: rest) ∨
    (∃ m' x' d', m < m' ∧ AtC r u j (.client f :: rest) m' x' k ∧ PhC n q id k d' x' ∧ ((∀ m', m ≤ m' → (r.st m').data.sd.tok k = true) → d' < d)) ∨
    Stuck r ad i0 u c n q id f rest j k := by
  have wt : ∀ (S' : SemId) S i k', some (S', id, k) = some (S, i, k') → k' = k := by
    intro S' S i k' h
    cases h; rfl
  cases hx with
  | swLoop =>
    obtain ⟨m', sd, a, h1, h2, h3, h4, h5⟩ := h.next (by simp) ha fun n _ _ => ⟨n, Nat.le_refl _, by
      simp only [sstep]; split <;> exact ⟨_, rfl⟩⟩
    cases h3 with
    | swSig => exact .inr (.inl ⟨m' + 1, _, _, by omega, h2.succ h5.1 h5.2.1 (wt _), .swRem _, fun _ => by omega⟩)
    | swNot _ _ _ hn => exact .inr (.inl ⟨m' + 1, _, _, by omega, h2.succ h5.1 h5.2.1 (wt _), .swChk, fun hk => by rw [hk m' h1] at hn; cases hn⟩)
  | swChk =>
    obtain ⟨m', sd, a, h1, h2, h3, h4, h5⟩ := h.next (by simp) ha fun n _ _ => ⟨n, Nat.le_refl _, by
      simp only [sstep]; split <;> exact ⟨_, rfl⟩⟩
    cases h3 with
    | swExit => exact .inr (.inl ⟨m' + 1, _, _, by omega, h2.succ h5.1 h5.2.1 (wt _), .swRem _, fun _ => by omega⟩)
    | swStay => exact .inr (.inl ⟨m' + 1, _, _, by omega, h2.succ h5.1 h5.2.1 (wt _), .swBefore, fun _ => by omega⟩)
  | swRem y =>
    obtain ⟨m', sd, a, h1, h2, h3, h4, h5⟩ := h.next (by simp) ha fun n _ _ => ⟨n, Nat.le_refl _, _, rfl⟩
    cases h3
    exact .inl (h2.back h5.1 h5.2.1)
  | swBefore =>
    obtain ⟨m', sd, a, h1, h2, h3, h4, h5⟩ := h.next (by simp) ha fun n _ _ => ⟨n, Nat.le_refl _, _, rfl⟩
    cases h3
    have hst : (r.st (m' + 1)).stk u = .core (.waitIn none) :: .client (.swAfter (.cv n q) id k) :: .client f :: rest := h5.1
    have hrel : (r.st (m' + 1)).data.sd.lk (.user q) ≠ some u := by
      rw [h4]
      simp [SData.relLk, SData.setLk, W.lk]
    have hc : Calm r { sd := {}, ad := ad } (.app i0) u c (.swAfter (.cv n q) id k) (.client f :: rest) :=
      ⟨h.hr, h.fair.just, .of h.unr, fun t b => h.run _ _ t b, fun t b => h.drop _ _ t b⟩
    have hsj : ∀ p, j ≤ p → p ≤ m' + 1 → ∃ pre g, (r.st p).stk u = pre ++ .client g :: .client f :: rest ∧ ∀ S i k', wtok g = some (S, i, k') → k' = k := by
      intro q h3 h4
      rcases Nat.lt_or_eq_of_le h4 with h4 | rfl
      · exact h2.suf q h3 (by omega)
      · exact ⟨[_], _, hst, wt _⟩
    have h0 : Above u c (.client (.swAfter (.cv n q) id k) :: .client f :: rest) (r.st (m' + 1)) :=
      ⟨[_], hst, by simp, (h.at (m := m' + 1) (by have := h2.le; omega) fun p h6 h7 => by obtain ⟨pre, g, h8, -⟩ := hsj p h6 h7; exact ⟨pre, _, h8⟩).1⟩
    have hR : Round r u c (.swAfter (.cv n q) id k) (.client f :: rest) (m' + 1) (m' + 1) [.core (.waitIn none)] :=
      ⟨Nat.le_refl _, hst, h5.2.1, fun q h3 h4 => by obtain rfl := Nat.le_antisymm h4 h3; rw [hst]; exact List.suffix_cons _ _⟩
    rcases Round.wait hc h0 hR with ⟨n1, h6, h7⟩ | ⟨n1, dl, h6, h7⟩
    · obtain ⟨n', h8, h9⟩ := h7.back hc h0
      have hgo : ∀ v d rv d' a, SS A.run A.destroy v d rv (.swAfter (.cv n q) id k) d' a → ∃ y, a = .goto y ∧ y ≠ .swAfter (.cv n q) id k := by
        intro v d rv d' a hS
        cases hS <;> exact ⟨_, rfl, by simp⟩
      obtain ⟨m0, h10, h11, h12⟩ := first_back h.hr (fun e => rfl) hgo (by simp) hst h9.le h9.suf h9.stk h9.exc
      have hl0 := h.keep _ _ _ _ h11 hrel
      have hA : AtC r u j (.client f :: rest) m0 (.swAfter (.cv n q) id k) k := by
        refine ⟨by have := h2.le; have := h11.1; omega, h11.2.1, h12, fun p h3 h4 => ?_⟩
        rcases Nat.le_total p (m' + 1) with hq | hq
        · exact hsj p h3 hq
        · obtain ⟨pre, hp⟩ := h9.suf p hq (by omega)
          exact ⟨pre, _, hp.symm, wt _⟩
      obtain ⟨m5, sd, a, h13, h14, h15, h16, h17⟩ := h.next (by simp) hA fun n1 hn hst => by
        obtain ⟨m', h1, h2⟩ := h.lock n1 _ fun m hm => (hst m (by omega)).1
        refine ⟨m', h1, ?_⟩
        have hl : (r.st m').data.sd.lk (.user q) = none := by
          cases hl : (r.st m').data.sd.lk (.user q) with
          | none => rfl
          | some v =>
            obtain rfl := h2 v hl
            obtain ⟨k, rfl⟩ := Nat.exists_eq_add_of_le (show m0 ≤ m' by omega)
            exact absurd hl (lk_stays (by simp) hgo (fun m hm => (hst m hm).2) (fun m hm => (hst m hm).1) hl0 k)
        simp [sstep, takeLk, W.lk, hl]
      have hlt := h11.1
      cases h15 <;> exact .inr (.inl ⟨m5 + 1, _, _, by omega, h14.succ h17.1 h17.2.1 (wt _), .swLoop, fun _ => by omega⟩)
    · refine .inr (.inr ⟨n1, m' + 1, dl, hc, h0, h7, fun p hp => ?_⟩)
      rcases Nat.le_total p (m' + 1) with hq | hq
      · exact hsj p hp hq
      · rcases Nat.le_total p n1 with hq1 | hq1
        · obtain ⟨pre, hp⟩ := (h7 n1 (Nat.le_refl _)).suf p hq hq1
          exact ⟨pre, _, hp.symm, wt _⟩
        · exact ⟨[_], _, (h7 p hq1).stk, wt _⟩

theorem CEnv.done {d : Nat} (ha : AtC r u j (.client f :: rest) m x k) (hx : PhC n q id k d x) (hk : ∀ m', m ≤ m' → (r.st m').data.sd.tok k = true) :
    Back r u j (.client f :: rest) ∨ Stuck r ad i0 u c n q id f rest j k := by
  induction d using Nat.strong_induction_on generalizing m x with
  | _ d ih =>
    rcases h.one ha hx with h1 | ⟨m', x', q', h1, h2, h3, h4⟩ | h1
    · exact .inl h1
    · exact ih q' (h4 hk) h2 h3 fun m'' h5 => hk m'' (by omega)
    · exact .inr h1

theorem CEnv.upto {d : Nat} (ha : AtC r u j (.client f :: rest) m x k) (hx : PhC n q id k d x) (M : Nat) :
    Back r u j (.client f :: rest) ∨ Stuck r ad i0 u c n q id f rest j k ∨ ∃ m' x' d', M ≤ m' ∧ AtC r u j (.client f :: rest) m' x' k ∧ PhC n q id k d' x' := by
  generalize hd : M - m = e
  induction e using Nat.strong_induction_on generalizing m x d with
  | _ e ih =>
    by_cases hM : M ≤ m
    · exact .inr (.inr ⟨m, x, d, hM, ha, hx⟩)
    rcases h.one ha hx with h1 | ⟨m', x', q', h1, h2, h3, h4⟩ | h1
    · exact .inl h1
    · exact ih (M - m') (by omega) h2 h3 rfl
    · exact .inr (.inl h1)

end

theorem tok_le (hr : SR A ad i0 (r.st 0)) {M : Nat} (hM : (r.st M).data.sd.tok k = true) (hm : M ≤ m) : (r.st m).data.sd.tok k = true := by
  obtain ⟨e, rfl⟩ := Nat.exists_eq_add_of_le hm
  induction e with
  | zero => exact hM
  | succ e ih =>
    refine (step_ext (r.ok (M + e))).tok ?_ (ih (by omega))
    have h1 := sem_I (r.reach hr (M + e))
    exact h1.goneLt _ (h1.tokGone (ih (by omega)))

theorem slog_le {e : SEv} {M : Nat} (hM : e ∈ (r.st M).data.sd.slog) (hm : M ≤ m) : e ∈ (r.st m).data.sd.slog := by
  obtain ⟨d, rfl⟩ := Nat.exists_eq_add_of_le hm
  induction d with
  | zero => exact hM
  | succ d ih => exact slog_mono (r.ok (M + d)) (ih (by omega))

/-- A wait whose entry has been taken and signalled returns. -/
theorem found (hr : SR A ad i0 (r.st 0)) (h : CvWaits r u c n q f rest) (hst : (r.st j).stk u = .client (.cwIn n q) :: .client f :: rest)
    (hexc : ((r.st j).thr u).exc = none) (hloc : (r.st j).loc u = some c) {v M i : Nat} {L pre : List (Fr α φ)} {g : SFrame α φ} {S : SemId} {l : List (Nat × Nat)}
    {K : NK α} (hv : Notifies r v K L) (hM : j ≤ M) (hg : (r.st M).stk u = pre ++ .client g :: .client f :: rest) (hw : wtok g = some (S, i, k))
    (htk : .took v S l ∈ (r.st (M + 1)).data.sd.slog) (hl : (i, k) ∈ l) (hsig : i ≠ 0 → ∃ m, (r.st m).data.sd.tok k = true) :
    Back r u j (.client f :: rest) ∨ ∃ m id n, .unregistered c id n ∈ (r.st m).log := by
  by_contra hcon
  simp only [not_or, not_exists] at hcon
  obtain ⟨hb, hun⟩ := hcon
  have h0 : Above u c (.client f :: rest) (r.st j) := ⟨[_], hst, by simp, hloc⟩
  obtain ⟨id, hreg⟩ := h0.reg (r.reach hr j)
  have hE : CEnv r ad i0 u c n q j id f rest := ⟨h, hr, h0, hreg, hun⟩
  -- the call, up to the entry in the list
  obtain ⟨m1, sd1, a1, h1, h2, h3, h4, -, -⟩ := check_state hr h.fair (by simp) hst hexc fun n hn _ => ⟨n, Nat.le_refl _, by
    simp only [sstep]; split <;> exact ⟨_, rfl⟩⟩
  cases h3 with
  | cwBad => have := (r.good (m1 + 1)).2; rw [h4.2.1] at this; cases this
  | cwIn =>
  have hst1 : (r.st (m1 + 1)).stk u = .client (.swIn (.cv n q)) :: .client f :: rest := h4.1
  obtain ⟨m2, sd2, a2, h5, h6, h7, h8, -, -⟩ := check_state hr h.fair (by simp) hst1 h4.2.1 fun n hn _ => ⟨n, Nat.le_refl _, _, rfl⟩
  cases h7
  have hsuf : ∀ k0 p, j ≤ p → p ≤ m2 → ∃ pre g, (r.st p).stk u = pre ++ .client g :: .client f :: rest ∧ ∀ S i k', wtok g = some (S, i, k') → k' = k0 := by
    intro k0 p h9 h10
    rcases Nat.lt_or_ge m1 p with h11 | h11
    · exact ⟨[], _, (h6 p h11 h10).stk.trans hst1, by simp [wtok]⟩
    · exact ⟨[], _, (h2 p h9 h11).stk.trans hst, by simp [wtok]⟩
  have hat := fun (p : Nat) (h9 : j ≤ p) (hs : ∀ m', j ≤ m' → m' ≤ p → ∃ pre g, (r.st m').stk u = pre ++ .client g :: .client f :: rest) =>
    hE.at h9 fun m' h10 h11 => by obtain ⟨pre, g, h12⟩ := hs m' h10 h11; exact ⟨pre, _, h12⟩
  have hid : ((r.st m2).view u).id = id := (hat m2 (by omega) fun p h9 h10 => by obtain ⟨pre, g, h11, -⟩ := hsuf 0 p h9 h10; exact ⟨pre, g, h11⟩).2.2.2.1
  rw [hid] at h8
  obtain ⟨k0, hk0⟩ : ∃ k0, k0 = ((r.st m2).data.sd.addWaiter ((r.st m2).view u).tid (W.cv n q).sem id).2 := ⟨_, rfl⟩
  rw [← hk0] at h8
  have hA : AtC r u j (.client f :: rest) (m2 + 1) (.swLoop (.cv n q) id k0) k0 := by
    refine ⟨by omega, h8.1, h8.2.1, fun p h9 h10 => ?_⟩
    rcases Nat.lt_or_eq_of_le h10 with h10 | rfl
    · exact hsuf k0 p h9 (by omega)
    · exact ⟨[], _, h8.1, by simp [wtok]⟩
  clear h2 h4 h6 h8 hsuf hst1 hid
  -- what is known of the wait that the notifier found
  have key : ∀ P g', j ≤ P → M < P → .client g' ∈ (r.st P).stk u → wtok g' = some (.cv n, id, k0) →
      (∀ p, j ≤ p → p ≤ P → ∃ pre g, (r.st p).stk u = pre ++ .client g :: .client f :: rest ∧ ∀ S i k', wtok g = some (S, i, k') → k' = k0) →
      k = k0 ∧ i = id ∧ S = .cv n ∧ id ≠ 0 := by
    intro P g' h1 h2 h3 h4 h5
    obtain ⟨pre', g1, h6, h7⟩ := h5 M hM (by omega)
    rw [hg] at h6
    obtain ⟨-, h8⟩ := List.append_inj' h6 (by simp)
    simp only [List.cons.injEq, Frame.client.injEq] at h8
    obtain ⟨rfl, -⟩ := h8
    obtain rfl := h7 _ _ _ hw
    obtain ⟨a, ha⟩ := (sem_F (r.reach hr M) (show .client g ∈ (r.st M).stk u by rw [hg]; simp)).wt _ _ _ hw
    obtain ⟨b, hb⟩ := (sem_F (r.reach hr P) h3).wt _ _ _ h4
    obtain ⟨-, h9, h10⟩ := (sem_I (r.reach hr P)).entUq (slog_le ha (by omega)) hb
    exact ⟨rfl, h10, h9, (hat P h1 fun m' h10 h11 => by obtain ⟨pre, g, h12, -⟩ := h5 m' h10 h11; exact ⟨pre, g, h12⟩).2.2.2.2⟩
  -- it does not stay blocked
  have hno : ¬ Stuck r ad i0 u c n q id f rest j k0 := by
    rintro ⟨m3, i3, dl, hc, hab, hR, hs⟩
    obtain ⟨rfl, rfl, rfl, hi0⟩ := key (max (M + 1) m3) (.swAfter (.cv n q) id k0) (by omega) (by omega) (by rw [(hR _ (by omega)).stk]; simp) rfl
      fun p h1 _ => hs p h1
    obtain ⟨T, hT⟩ := hsig hi0
    have hu : ∀ m, max j (max (M + 1) (max m3 T)) ≤ m → (r.st m).loc u = some c ∧ InReg (r.st m) c ∧ ((r.st m).ctxs c).id = i := by
      intro m hm
      obtain ⟨h1, h2, h3, -⟩ := hat m (by omega) fun p h9 _ => by obtain ⟨pre, g, h11, -⟩ := hs p h9; exact ⟨pre, g, h11⟩
      exact ⟨h1, h2, h3⟩
    generalize hN : max j (max (M + 1) (max m3 T)) = N at hu
    obtain ⟨h1, h2, h3⟩ := hu N (Nat.le_refl _)
    have hrN := r.reach hr N
    rcases deliver hrN (r.good N).2 (S := .cv n) (i := i) (k := k) (.blk _ _ _ (hR N (by omega)).stk (by simp [isBlk]) rfl) h1 h2 h3 (tok_le hr hT (by omega))
      with h4 | ⟨v', hne, hd⟩
    · exact hc.wakes hab hR (show m3 ≤ N by omega) h4
    · obtain ⟨g', h4, h5⟩ := hd.delivering
      obtain ⟨l', h6, h7⟩ := ((tookTy A ad i0).sound trivial hrN).fr v' _ h4 (i, k) h5
      have h8 := (sem_I hrN).gone_uniq h6 (slog_le htk (show M + 1 ≤ N by omega)) (k := k) (List.mem_map.2 ⟨_, h7, rfl⟩) (List.mem_map.2 ⟨_, hl, rfl⟩)
      simp only [SEv.took.injEq] at h8
      obtain ⟨rfl, -⟩ := h8
      obtain ⟨m4, h9, h10⟩ := dlvr_ends hr hv.fair hv.glob hne hu _ N (Nat.le_refl _) (Nat.le_refl _) hd
      exact hc.wakes hab hR (show m3 ≤ m4 by omega) (.inl h10)
  rcases hE.upto hA .swLoop (M + 1) with h1 | h1 | ⟨m3, x, d, h1, h2, h3⟩
  · exact hb h1
  · exact hno h1
  obtain ⟨rfl, rfl, rfl, hi0⟩ := key m3 x h2.le h1 (by rw [h2.stk]; simp) (by cases h3 <;> rfl) h2.suf
  obtain ⟨T, hT⟩ := hsig hi0
  rcases hE.upto h2 h3 T with h1 | h1 | ⟨m4, x', d', h1, h2, h3⟩
  · exact hb h1
  · exact hno h1
  rcases hE.done h2 h3 fun m' h4 => tok_le hr hT (by omega) with h5 | h5
  · exact hb h5
  · exact hno h5

end

/-! ## The theorems -/

section
variable {α φ δ χ : Type} {A : App α φ δ χ} {ad : δ} {i0 : φ} {r : Run (client A)} {u v c n q j k i : Nat} {f g : SFrame α φ} {rest L pre : List (Fr α φ)} {ch : Ch χ}

theorem AtN.ends {m : Nat} (h : AtN r v L j m []) (hj : j < m) : r.Ends v L j m := ⟨hj, h.stk, h.suf⟩

/-- **C64.** notify_all returns without an exception, provided that the scheduler is strongly fair to the thread, the global mutex is not held for ever, and the
    destructors of tasks that it executes return. -/
theorem C64_notify_all (hr : SR A ad i0 (r.st 0)) (h : Notifies r v (.cv n) L) (hst : (r.st j).stk v = .client (SApi.notifyAll n).entry :: L)
    (hexc : ((r.st j).thr v).exc = none) : ∃ m, r.Ends v L j m ∧ ((r.st m).thr v).exc = none := by
  have h0 : AtN r v L j j [.client (.naIn (.cv n))] := ⟨Nat.le_refl _, hst, hexc, fun q h1 h2 => by omega⟩
  obtain ⟨m', sd, a, h1, h2, h3, h4, h5⟩ := h0.cl hr h.fair (by simp) fun m => ⟨_, rfl⟩
  cases h3
  obtain ⟨m2, h6, h7, -⟩ := AtN.all hr h _ (h2.succ (G' := [_]) h5.1 h5.2.1)
  obtain ⟨m3, h8, h9⟩ := AtN.cv hr h h7
  exact ⟨m3, h9.ends (by omega), h9.exc⟩

/-- **C64.** notify_one as well. -/
theorem C64_notify_one (hr : SR A ad i0 (r.st 0)) (h : Notifies r v (.cv n) L) (hst : (r.st j).stk v = .client (SApi.notifyOne n).entry :: L)
    (hexc : ((r.st j).thr v).exc = none) : ∃ m, r.Ends v L j m ∧ ((r.st m).thr v).exc = none := by
  have h0 : AtN r v L j j [.client (.n1In n)] := ⟨Nat.le_refl _, hst, hexc, fun q h1 h2 => by omega⟩
  obtain ⟨m', sd, a, h1, h2, h3, h4, h5⟩ := h0.cl hr h.fair (by simp) fun m => ⟨_, rfl⟩
  cases h3
  obtain ⟨m2, h6, h7, -⟩ := AtN.all hr h _ (h2.succ (G' := [_]) h5.1 h5.2.1)
  obtain ⟨m3, h8, h9⟩ := AtN.cv hr h h7
  exact ⟨m3, h9.ends (by omega), h9.exc⟩

/-- **C65.** Thread `u`, registered as `c`, has called condition_variable::wait of `n` with the lock `q`.  When thread `v` makes the first step of notify_all of `n`, the
    entry of this wait is in the list.  Then the wait returns without an exception; unless `u` is unregistered by a task that the wait executes. -/
theorem C65_notify_all (hr : SR A ad i0 (r.st 0)) (h : CvWaits r u c n q f rest) (hst : (r.st j).stk u = .client (SApi.cvWait n q).entry :: .client f :: rest)
    (hexc : ((r.st j).thr u).exc = none) (hloc : (r.st j).loc u = some c) (hv : Notifies r v (.cv n) L) {M : Nat} (hM : j ≤ M)
    (hg : (r.st M).stk u = pre ++ .client g :: .client f :: rest) (hw : wtok g = some (.cv n, i, k)) (hin : (i, k) ∈ (r.st M).data.sd.sem (.cv n))
    (hn : (r.st M).stk v = .client (SApi.notifyAll n).entry :: L) (hne : ((r.st M).thr v).exc = none) (hlab : r.lab M = .th v ch) :
    (∃ m, r.Ends u (.client f :: rest) j m ∧ ((r.st m).thr u).exc = none) ∨ ∃ m id n, .unregistered c id n ∈ (r.st m).log := by
  have hok := r.ok M
  rw [hlab] at hok
  obtain ⟨a, h1, h2⟩ := own_ss hn hok hne (by simp [SApi.entry])
  generalize hd : (r.st (M + 1)).data.sd = d at h1
  cases h1
  have h0 : AtN r v L (M + 1) (M + 1) [.client (.nLoop (.cv n) ((r.st M).data.sd.sem (.cv n)))] := ⟨Nat.le_refl _, h2.1, h2.2.1, fun q h1 h2 => by omega⟩
  obtain ⟨m2, h6, h7, h8⟩ := AtN.all hr hv _ h0
  exact found hr h hst hexc hloc hv hM hg hw (by rw [hd]; exact List.mem_cons_self) hin fun hi => h8 _ hin hi

/-- **C65.** notify_one wakes up the first waiter of the list. -/
theorem C65_notify_one (hr : SR A ad i0 (r.st 0)) (h : CvWaits r u c n q f rest) (hst : (r.st j).stk u = .client (SApi.cvWait n q).entry :: .client f :: rest)
    (hexc : ((r.st j).thr u).exc = none) (hloc : (r.st j).loc u = some c) (hv : Notifies r v (.cv n) L) {M : Nat} (hM : j ≤ M)
    (hg : (r.st M).stk u = pre ++ .client g :: .client f :: rest) (hw : wtok g = some (.cv n, i, k)) (hin : ((r.st M).data.sd.sem (.cv n)).head? = some (i, k))
    (hn : (r.st M).stk v = .client (SApi.notifyOne n).entry :: L) (hne : ((r.st M).thr v).exc = none) (hlab : r.lab M = .th v ch) :
    (∃ m, r.Ends u (.client f :: rest) j m ∧ ((r.st m).thr u).exc = none) ∨ ∃ m id n, .unregistered c id n ∈ (r.st m).log := by
  have hok := r.ok M
  rw [hlab] at hok
  obtain ⟨a, h1, h2⟩ := own_ss hn hok hne (by simp [SApi.entry])
  generalize hd : (r.st (M + 1)).data.sd = d at h1
  cases h1
  have hin : (i, k) ∈ ((r.st M).data.sd.sem (.cv n)).take 1 := by
    cases hl : (r.st M).data.sd.sem (.cv n) with
    | nil => rw [hl] at hin; cases hin
    | cons x l => rw [hl] at hin; cases hin; simp
  have h0 : AtN r v L (M + 1) (M + 1) [.client (.nLoop (.cv n) (((r.st M).data.sd.sem (.cv n)).take 1))] := ⟨Nat.le_refl _, h2.1, h2.2.1, fun q h1 h2 => by omega⟩
  obtain ⟨m2, h6, h7, h8⟩ := AtN.all hr hv _ h0
  exact found hr h hst hexc hloc hv hM hg hw (by rw [hd]; exact List.mem_cons_self) hin fun hi => h8 _ hin hi

end

/-! ## Examples: main waits, thread 1 notifies -/

def notProg (x : SApi Nat) : List (SAct Nat Nat) :=
  [.core .registerThis 2, .core (.spawn 1 5) 3, .sync (.lock 0) 4, .sync (.cvWait 0 0) 8, .core .registerThis 6, .sync x 8]

def notLs : List (Lbl Unit) := Core.go 0 15 ++ Core.go 1 16 ++ Core.go 0 10

/-- Thread 0 does not return to its wait with the lock, and thread 1 destroys nothing. -/
def notOk (s : DSt) : Bool :=
  (match s.stk 0 with | .client (.swAfter _ _ _) :: _ => decide (s.data.sd.lk (.user 0) ≠ some 0) | _ => true) &&
  (match s.stk 1 with | _ :: .core (.destroyList _ _ _ _) :: _ => false | _ => true)

set_option maxHeartbeats 1000000 in
theorem not_run {x : SApi Nat}
    (hend : (sexec (notProg x) notLs).map (fun s => (s.ub, s.term, decide ((s.thr 0).status = .running), (s.stk 0).isEmpty)) = some (false, false, false, true))
    (hend' : (sexec (notProg x) notLs).map (fun s => (decide ((s.thr 1).status = .running), (s.stk 1).isEmpty, s.gOwner)) = some (false, true, none))
    (htab : (List.range (notLs.length + 1)).map (fun i => (sexec (notProg x) (notLs.take i)).map fun s => (ranTop (s.stk 0), freedTop (s.stk 0))) =
      (List.range (notLs.length + 1)).map fun i => some (decide (i = 32), decide (i = 34)))
    (h0 : (sexec (notProg x) (notLs.take 32)).map (fun s => (s.stk 0).tail) =
      some [.core (.ran 0 .noop (.toWait false)), .client (.swAfter (.cv 0 0) 1 0), .client (.app 8)])
    (h1 : (sexec (notProg x) (notLs.take 33)).map (fun s => (s.stk 0, (s.thr 0).exc)) =
      some ([.core (.ran 0 .noop (.toWait false)), .client (.swAfter (.cv 0 0) 1 0), .client (.app 8)], none))
    (h2 : (sexec (notProg x) (notLs.take 34)).map (fun s => (s.stk 0).tail) =
      some [.core (.freed 0 .noop (.toWait false)), .client (.swAfter (.cv 0 0) 1 0), .client (.app 8)])
    (h3 : (sexec (notProg x) (notLs.take 35)).map (fun s => (s.stk 0, (s.thr 0).exc)) =
      some ([.core (.freed 0 .noop (.toWait false)), .client (.swAfter (.cv 0 0) 1 0), .client (.app 8)], none))
    (hok : ∀ m < notLs.length + 1, (sexec (notProg x) (notLs.take m)).map notOk = some true)
    (hj : (sexec (notProg x) (notLs.take 9)).map (fun s => (s.stk 0, (s.thr 0).exc, s.loc 0)) =
      some ([.client (SApi.cvWait 0 0).entry, .client (.app 8)], none, some 0))
    (hM : (sexec (notProg x) (notLs.take 20)).map (fun s => (s.stk 0, s.data.sd.sem (.cv 0))) =
      some ([.core (.parked 0 none), .client (.swAfter (.cv 0 0) 1 0), .client (.app 8)], [(1, 0)]))
    (hN : (sexec (notProg x) (notLs.take 20)).map (fun s => (s.stk 1, (s.thr 1).exc)) = some ([.client x.entry, .client (.app 8)], none))
    (hM' : (sexec (notProg x) (notLs.take 21)).map (fun s => decide (s.stk 1 = [.client x.entry, .client (.app 8)])) = some false) :
    ∃ r : Run (client (tableApp (notProg x))), SR (tableApp (notProg x)) () 1 (r.st 0) ∧ CvWaits r 0 0 0 0 (.app 8) [] ∧ Notifies r 1 (.cv 0) [.client (.app 8)] ∧
      (r.st 9).stk 0 = [.client (SApi.cvWait 0 0).entry, .client (.app 8)] ∧ ((r.st 9).thr 0).exc = none ∧ (r.st 9).loc 0 = some 0 ∧
      (r.st 20).stk 0 = [.core (.parked 0 none)] ++ [.client (.swAfter (.cv 0 0) 1 0), .client (.app 8)] ∧ (r.st 20).data.sd.sem (.cv 0) = [(1, 0)] ∧
      (r.st 20).stk 1 = [.client x.entry, .client (.app 8)] ∧ ((r.st 20).thr 1).exc = none ∧ ∃ ch, r.lab 20 = .th 1 ch := by
  obtain ⟨r, e1, e2, e3, e4, e5, e6⟩ := timed_run (C := client (tableApp (notProg x))) (d := { sd := {}, ad := () }) (f0 := .app 1)
    (ls := notLs) (x := .noop) (rr := .toWait false) (L := [.client (.swAfter (.cv 0 0) 1 0), .client (.app 8)]) 32 (isRan := ranTop) (isFreed := freedTop)
    (fun _ _ _ _ => rfl) (fun _ _ _ _ => rfl) hend htab h0 h1 h2 h3 (by decide)
  have hend0 : (sexec (notProg x) notLs).map (fun s => (s.stk 0).isEmpty) = some true := by
    obtain ⟨s', h4, h5⟩ := Option.map_eq_some_iff.1 hend
    simp only [Prod.mk.injEq] at h5
    rw [h4, Option.map_some, h5.2.2.2]
  obtain ⟨s', h4, h5⟩ := Option.map_eq_some_iff.1 hend'
  simp only [Prod.mk.injEq] at h5
  have hlate : ∀ i, notLs.length ≤ i → ∃ c, r.st i = { s' with clock := c } := fun i hi => by
    obtain ⟨d, rfl⟩ := Nat.exists_eq_add_of_le hi
    exact ⟨_, e6 s' h4 d⟩
  have hokr : ∀ m, m ≤ notLs.length → notOk (r.st m) = true := fun m hm => e5 _ _ _ hm (hok m (by omega))
  have g9 := e5 _ 9 _ (by decide) hj
  have g20 := e5 _ 20 _ (by decide) hM
  have g20' := e5 _ 20 _ (by decide) hN
  have g21 := e5 _ 21 _ (by decide) hM'
  simp only [Prod.mk.injEq] at g9 g20 g20'
  refine ⟨r, e1, ⟨e2, frees_end hend0 e6 _ _, ?_, fun i k t b => (e4 _ _ t).1, fun i k t b => (e4 _ _ t).2⟩, ⟨?_, ?_, ?_⟩, g9.1, g9.2.1, g9.2.2, g20.1, g20.2,
    g20'.1, g20'.2, ?_⟩
  · intro i k i' m hE _ hc
    have hst := hE.2.1
    rcases Nat.lt_or_ge m (notLs.length + 1) with hm | hm
    · have := hokr m (by omega)
      simp [notOk, hst, hc] at this
    · obtain ⟨q, rfl⟩ := Nat.exists_eq_add_of_le (show notLs.length ≤ m by omega)
      obtain ⟨s', h1, h2⟩ := Option.map_eq_some_iff.1 hend0
      rw [e6 s' h1 q] at hst
      have h3 : s'.stk 0 = _ := hst
      rw [h3] at h2
      cases h2
  · intro i hi
    obtain ⟨q, h6, ch, h7⟩ := hi (max i notLs.length) (by omega)
    obtain ⟨c, h8⟩ := hlate q (by omega)
    have := of_decide_eq_false h5.1
    rw [h8] at h7
    unfold step at h7
    split at h7
    · cases h7
    · dsimp only at h7
      rw [if_pos this] at h7
      cases h7
  · intro i
    obtain ⟨c, h8⟩ := hlate (max i notLs.length) (by omega)
    exact ⟨max i notLs.length, by omega, by rw [h8]; exact h5.2.2⟩
  · intro i k l' t c l fn y m hst _
    exfalso
    rcases Nat.lt_or_ge m (notLs.length + 1) with hm | hm
    · have := hokr m (by omega)
      simp [notOk, hst] at this
    · obtain ⟨c, h8⟩ := hlate m (by omega)
      rw [h8] at hst
      have h9 : s'.stk 1 = _ := hst
      have h10 := h5.2.1
      rw [h9] at h10
      cases h10
  · by_contra hcon
    push Not at hcon
    have h6 := same_step (r.reach e1 20) (r.ok 20) (t := 1) (by rw [g20'.1]; simp) hcon
    rw [← g20'.1, h6.stk] at g21
    simp at g21

/-- Hypotheses of `C64_notify_all` and `C65_notify_all`. -/
example : ∃ r : Run (client (tableApp (notProg (.notifyAll 0)))), SR (tableApp (notProg (.notifyAll 0))) () 1 (r.st 0) ∧ CvWaits r 0 0 0 0 (.app 8) [] ∧
      Notifies r 1 (.cv 0) [.client (.app 8)] ∧
      (r.st 9).stk 0 = [.client (SApi.cvWait 0 0).entry, .client (.app 8)] ∧ ((r.st 9).thr 0).exc = none ∧ (r.st 9).loc 0 = some 0 ∧
      (r.st 20).stk 0 = [.core (.parked 0 none)] ++ [.client (.swAfter (.cv 0 0) 1 0), .client (.app 8)] ∧ (r.st 20).data.sd.sem (.cv 0) = [(1, 0)] ∧
      (r.st 20).stk 1 = [.client (SApi.notifyAll 0).entry, .client (.app 8)] ∧ ((r.st 20).thr 1).exc = none ∧ ∃ ch, r.lab 20 = .th 1 ch :=
  not_run (by decide +kernel) (by decide +kernel) (by decide +kernel) (by decide +kernel) (by decide +kernel) (by decide +kernel) (by decide +kernel)
    (by decide +kernel) (by decide +kernel) (by decide +kernel) (by decide +kernel) (by decide +kernel)

/-- Hypotheses of `C64_notify_one` and `C65_notify_one`. -/
example : ∃ r : Run (client (tableApp (notProg (.notifyOne 0)))), SR (tableApp (notProg (.notifyOne 0))) () 1 (r.st 0) ∧ CvWaits r 0 0 0 0 (.app 8) [] ∧
      Notifies r 1 (.cv 0) [.client (.app 8)] ∧
      (r.st 9).stk 0 = [.client (SApi.cvWait 0 0).entry, .client (.app 8)] ∧ ((r.st 9).thr 0).exc = none ∧ (r.st 9).loc 0 = some 0 ∧
      (r.st 20).stk 0 = [.core (.parked 0 none)] ++ [.client (.swAfter (.cv 0 0) 1 0), .client (.app 8)] ∧ (r.st 20).data.sd.sem (.cv 0) = [(1, 0)] ∧
      (r.st 20).stk 1 = [.client (SApi.notifyOne 0).entry, .client (.app 8)] ∧ ((r.st 20).thr 1).exc = none ∧ ∃ ch, r.lab 20 = .th 1 ch :=
  not_run (by decide +kernel) (by decide +kernel) (by decide +kernel) (by decide +kernel) (by decide +kernel) (by decide +kernel) (by decide +kernel)
    (by decide +kernel) (by decide +kernel) (by decide +kernel) (by decide +kernel) (by decide +kernel)

end Itc
