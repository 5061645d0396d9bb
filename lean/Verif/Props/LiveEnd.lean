import Verif.Props.Live

/-!
# C72: a thread that is told to exit ends

For an arbitrary client and infinite execution.
-/
namespace Itc
open Core
section
variable {τ φ δ χ : Type} {C : Client τ φ δ χ} {d : δ} {f0 : φ} {r : Run C}

/-- The client code `f` is the end of the function that `make_thread` gives to its thread (thread.cpp:665-670): the loop
    `while(!notified_for_exit()) wait();`, then `unregister_this_thread()`, then (`g`) the function returns. -/
structure LoopEnd (C : Client τ φ δ χ) (f g : φ) : Prop extends IsLoop C f where
  leave : ∀ v d rv ch d' a, v.exit = true → C.step v d f rv ch = some (d', a) → a = .call .unregisterThis g
  on' : ∀ v d rv, ∃ ch, (C.step v d g rv ch).isSome
  ret : ∀ v d rv ch d' a, C.step v d g rv ch = some (d', a) → ∃ x, a = .ret x

/-- The next step of thread `t`. -/
structure Run.Own (r : Run C) (t i : Nat) (L : List (Frame τ φ)) (m : Nat) (ch : Ch χ) : Prop where
  le : i ≤ m
  stk : (r.st m).stk t = L
  exc : ((r.st m).thr t).exc = none
  loc : (r.st m).loc t = (r.st i).loc t
  ok : step C (r.st m) (.th t ch) = some (r.st (m + 1))
  keep : ∀ q, i ≤ q → q ≤ m → (r.st q).stk t = L
  no : ∀ q, i ≤ q → q < m → ∀ ch, r.lab q ≠ .th t ch

theorem Run.Own.of (hr : Reach C d f0 (r.st 0)) {t i : Nat} {L : List (Frame τ φ)} (hst : (r.st i).stk t = L) (hne : L ≠ []) (hx : ((r.st i).thr t).exc = none)
    (hex : ∃ q, i ≤ q ∧ ∃ ch, r.lab q = .th t ch) : ∃ m ch, r.Own t i L m ch := by
  classical
  have hspec := Nat.find_spec hex
  have hmin := fun q => Nat.find_min hex (m := q)
  generalize Nat.find hex = q at hspec hmin
  obtain ⟨h1, ch', h2⟩ := hspec
  have hok := r.ok q
  rw [h2] at hok
  have hno : ∀ q', i ≤ q' → q' < q → ∀ ch, r.lab q' ≠ .th t ch := fun q' ha hb ch hc => hmin q' hb ⟨ha, ch, hc⟩
  have hk : ∀ q', i ≤ q' → q' ≤ q → Same t (r.st i) (r.st q') := fun q' ha hb =>
    r.same hr ha (by rw [hst]; exact hne) fun m h3 h4 => hno m h3 (by omega)
  exact ⟨q, ch', h1, (hk q h1 (Nat.le_refl _)).stk.trans hst, (hk q h1 (Nat.le_refl _)).exc.trans hx, (hk q h1 (Nat.le_refl _)).loc, hok,
    fun q' ha hb => (hk q' ha hb).stk.trans hst, hno⟩

/-- Thread `t` is above `G` from `i` until `m`. -/
def Run.Over (r : Run C) (t : Nat) (G : List (Frame τ φ)) (i m : Nat) : Prop :=
  ∀ q, i ≤ q → q < m → ∃ x p, (r.st q).stk t = x :: (p ++ G)

theorem Run.Over.trans {t i m m' : Nat} {G : List (Frame τ φ)} (h : r.Over t G i m) (h' : r.Over t G m m') : r.Over t G i m' := by
  intro q ha hb
  by_cases hq : q < m
  · exact h q ha hq
  · exact h' q (by omega) hb

theorem Run.Own.over {t i m : Nat} {x : Frame τ φ} {p G : List (Frame τ φ)} {ch : Ch χ} (h : r.Own t i (x :: (p ++ G)) m ch) : r.Over t G i (m + 1) :=
  fun q ha hb => ⟨x, p, h.keep q ha (by omega)⟩

theorem Run.own (hr : Reach C d f0 (r.st 0)) {t i : Nat} (hj : r.Just t) {g : Frame τ φ} {G : List (Frame τ φ)} (hst : (r.st i).stk t = g :: G)
    (hx : ((r.st i).thr t).exc = none)
    (hen : ∀ m, i ≤ m → (match g with
      | .core f => ∃ ch, (stepCore C (r.st m) t f G ch).isSome
      | .client f => ∃ ch, (stepClient C (r.st m) t f G ch).isSome)) : ∃ m ch, r.Own t i (g :: G) m ch := by
  obtain ⟨m, h1, -, ⟨ch, h3⟩, -⟩ := r.next hr hj (i := i) (by rw [hst]; simp) fun m hm hsame => by
    have h := hen m hm
    have e := fun ch => step_th (ch := ch) (r.reach hr m) (r.good m).1 (r.good m).2 (hsame.stk.trans hst) (hsame.exc.trans hx)
    cases g with
    | core f => obtain ⟨ch, h⟩ := h; exact ⟨ch, by rw [e ch]; exact h⟩
    | client f => obtain ⟨ch, h⟩ := h; exact ⟨ch, by rw [e ch]; exact h⟩
  exact Run.Own.of hr hst (by simp) hx ⟨m, h1, ch, h3⟩

theorem Run.ownF (hr : Reach C d f0 (r.st 0)) {t i : Nat} (hj : r.Strong t) {f : CF τ φ} {G : List (Frame τ φ)} (hst : (r.st i).stk t = .core f :: G)
    (hx : ((r.st i).thr t).exc = none)
    (hen : ∀ j, i ≤ j → ∃ m, j ≤ m ∧ ∃ ch, (stepCore C (r.st m) t f G ch).isSome) : ∃ m ch, r.Own t i (.core f :: G) m ch := by
  obtain ⟨m, h1, -, ⟨ch, h3⟩, -⟩ := r.nextF hr hj (i := i) (by rw [hst]; simp) fun j hij hsame => by
    obtain ⟨m, hm, ch, h⟩ := hen j hij
    refine ⟨m, hm, ch, ?_⟩
    rw [step_th (r.reach hr m) (r.good m).1 (r.good m).2 ((hsame m (by omega)).stk.trans hst) ((hsame m (by omega)).exc.trans hx)]
    exact h
  exact Run.Own.of hr hst (by simp) hx ⟨m, h1, ch, h3⟩

theorem Run.Own.core {t i m : Nat} {f : CF τ φ} {G : List (Frame τ φ)} {ch : Ch χ} (h : r.Own t i (.core f :: G) m ch) (hr : Reach C d f0 (r.st 0)) :
    stepCore C (r.st m) t f G ch = some (r.st (m + 1)) := by
  have := h.ok
  rwa [step_th (r.reach hr m) (r.good m).1 (r.good m).2 h.stk h.exc] at this

theorem Run.Own.client {t i m : Nat} {f : φ} {G : List (Frame τ φ)} {ch : Ch χ} (h : r.Own t i (.client f :: G) m ch) (hr : Reach C d f0 (r.st 0)) :
    stepClient C (r.st m) t f G ch = some (r.st (m + 1)) := by
  have := h.ok
  rwa [step_th (r.reach hr m) (r.good m).1 (r.good m).2 h.stk h.exc] at this

/-- Destroying the queued tasks ends. -/
theorem Run.freed (hr : Reach C d f0 (r.st 0)) {t c : Nat} (hj : r.Just t) {fn : Fn} {v : Val} {G : List (Frame τ φ)}
    (hd : ∀ k l, r.Returns t (C.destroy k) (.core (.destroyList c l fn v) :: G)) (l : List τ) : ∀ i, (r.st i).stk t = .core (.destroyList c l fn v) :: G →
      ((r.st i).thr t).exc = none → ∃ m, i < m ∧ (r.st m).stk t = G ∧ ((r.st m).thr t).exc = none ∧ r.Over t G i m := by
  induction l with
  | nil =>
    intro i h1 h2
    obtain ⟨m, ch, ho⟩ := Run.own hr hj h1 h2 fun m _ => ⟨.go, by simp [stepCore]⟩
    have h := ho.core hr
    simp only [stepCore, Option.some.injEq] at h
    refine ⟨m + 1, by have := ho.le; omega, by rw [← h]; simp [St.stk, St.ret], by rw [← h]; simpa [St.ret, St.setCtx] using ho.exc, ho.over (p := [])⟩
  | cons k l ih =>
    intro i h1 h2
    obtain ⟨m, ch, ho⟩ := Run.own hr hj h1 h2 fun m _ => ⟨.go, by simp [stepCore]⟩
    have h := ho.core hr
    simp only [stepCore, Option.some.injEq] at h
    obtain ⟨m', h3, h4, h5, h8⟩ := hd k l (m + 1) (by rw [← h]; simp [St.stk, St.setStk]) (by rw [← h]; simpa [St.setStk] using ho.exc)
    obtain ⟨m'', h6, h7, h9, h10⟩ := ih m' h4 h5
    refine ⟨m'', by have := ho.le; omega, h7, h9, (ho.over (p := [])).trans (.trans (fun q ha hb => ?_) h10)⟩
    obtain ⟨p, hp⟩ := h8 q ha (by omega)
    cases p with
    | nil => exact ⟨_, [], hp.symm⟩
    | cons x p => exact ⟨x, p ++ [.core (.destroyList c l fn v)], hp.symm.trans (by simp)⟩

/-- So does the end of the scope of a `shared_ptr<thread_context>`. -/
theorem Run.released (hr : Reach C d f0 (r.st 0)) {t c : Nat} (hj : r.Just t) {fn : Fn} {v : Val} {G : List (Frame τ φ)}
    (hd : ∀ k l, r.Returns t (C.destroy k) (.core (.destroyList c l fn v) :: G)) {i : Nat} (h1 : (r.st i).stk t = .core (.release c fn v) :: G)
      (h2 : ((r.st i).thr t).exc = none) : ∃ m, i < m ∧ (r.st m).stk t = G ∧ ((r.st m).thr t).exc = none ∧ r.Over t G i m := by
  obtain ⟨m, ch, ho⟩ := Run.own hr hj h1 h2 fun m _ => ⟨.go, by simp only [stepCore]; split <;> rfl⟩
  have h := ho.core hr
  have hle := ho.le
  simp only [stepCore] at h
  split at h
  · have h := Option.some.inj h
    obtain ⟨m', h3, h4, h5, h6⟩ := Run.freed hr hj hd ((r.st m).ctxs c).pend (m + 1) (by rw [← h]; simp [St.stk, St.setStk]) (by rw [← h]; simpa [St.setStk, St.setCtx] using ho.exc)
    exact ⟨m', by omega, h4, h5, (ho.over (p := [])).trans h6⟩
  · have h := Option.some.inj h
    exact ⟨m + 1, by omega, by rw [← h]; simp [St.stk, St.ret], by rw [← h]; simpa [St.ret, St.setCtx] using ho.exc, ho.over (p := [])⟩

/-- A thread that runs goes on to run, with its stack, until its next step. -/
theorem running_step {s s' : St τ φ δ} {l : Lbl χ} {t : Nat} (hs : step C s l = some s') (hl : ∀ ch, l ≠ .th t ch) (hrun : (s.thr t).status = .running) :
    (s'.thr t).status = .running ∧ (s'.thr t).stack = (s.thr t).stack ∧ (s'.thr t).exc = (s.thr t).exc := by
  cases l with
  | tick m => rw [step_tick C s s' m hs]; exact ⟨hrun, rfl, rfl⟩
  | th u ch =>
    have hu : t ≠ u := by rintro rfl; exact hl ch rfl
    simp only [step] at hs
    split at hs
    · contradiction
    split at hs
    · contradiction
    rename_i hru
    have hru : (s.thr u).status = .running := by simpa using hru
    split at hs
    · obtain rfl := Option.some.inj hs
      unfold stepExc
      repeat' split
      all_goals first | exact ⟨hrun, rfl, rfl⟩ | (simp [St.setStk, upd_ne _ _ hu, hrun])
    · split at hs
      · obtain rfl := Option.some.inj hs
        simp [stepEnd, upd_ne _ _ hu, hrun]
      · rcases stepCore_thr C s s' u _ _ ch hru hs with ⟨x, h, -⟩ | ⟨n, f, hn, h⟩ | ⟨n, hn, h⟩ | ⟨n, hn, h⟩
        · rw [h, upd_ne _ _ hu]; exact ⟨hrun, rfl, rfl⟩
        · have : t ≠ n := by rintro rfl; rw [hrun] at hn; cases hn
          rw [h, upd_ne _ _ hu, upd_ne _ _ this]; exact ⟨hrun, rfl, rfl⟩
        · have : t ≠ n := by rintro rfl; rw [hrun] at hn; cases hn
          rw [h, upd_ne _ _ hu, upd_ne _ _ this]; exact ⟨hrun, rfl, rfl⟩
        · rw [h, upd_ne _ _ hu]
          by_cases hn' : t = n
          · subst hn'; simp [hrun]
          · rw [upd_ne _ _ hn']; exact ⟨hrun, rfl, rfl⟩
      · simp only [stepClient] at hs
        split at hs
        · contradiction
        · split at hs <;> obtain rfl := Option.some.inj hs
          all_goals simp [St.setStk, upd_ne _ _ hu, hrun]

/-- A thread whose function has returned ends. -/
theorem Run.ends {t i : Nat} (hj : r.Just t) (hrun : ((r.st i).thr t).status = .running) (hst : (r.st i).stk t = []) (hx : ((r.st i).thr t).exc = none) :
    ∃ m, i ≤ m ∧ (r.st m).stk t = [] ∧ ((r.st m).thr t).status = .running ∧ r.st (m + 1) = stepEnd (r.st m) t := by
  classical
  have stay : ∀ k, (∀ m, i ≤ m → m < i + k → ∀ ch, r.lab m ≠ .th t ch) → ((r.st (i + k)).thr t).status = .running ∧ (r.st (i + k)).stk t = [] ∧
      ((r.st (i + k)).thr t).exc = none := by
    intro k
    induction k with
    | zero => intro _; exact ⟨hrun, hst, hx⟩
    | succ k ih =>
      intro hno
      obtain ⟨h1, h2, h3⟩ := ih fun m ha hb => hno m ha (by omega)
      obtain ⟨h4, h5, h6⟩ := running_step (r.ok (i + k)) (hno (i + k) (by omega) (by omega)) h1
      exact ⟨h4, h5.trans h2, h6.trans h3⟩
  have en : ∀ m ch, ((r.st m).thr t).status = .running → (r.st m).stk t = [] → ((r.st m).thr t).exc = none →
      step C (r.st m) (.th t ch) = some (stepEnd (r.st m) t) := by
    intro m ch h1 h2 h3
    have h2 : ((r.st m).thr t).stack = [] := h2
    simp [step, (r.good m).1, (r.good m).2, h1, h2, h3]
  have hex : ∃ m, i ≤ m ∧ ∃ ch, r.lab m = .th t ch := by
    by_contra hcon
    push Not at hcon
    obtain ⟨j, h1, ch, h2⟩ := hj i fun j hij => by
      obtain ⟨k, rfl⟩ := Nat.exists_eq_add_of_le hij
      obtain ⟨h1, h2, h3⟩ := stay k fun m ha _ => hcon m ha
      exact ⟨.go, by rw [en _ _ h1 h2 h3]; rfl⟩
    exact hcon j h1 ch h2
  have hspec := Nat.find_spec hex
  have hmin := fun m => Nat.find_min hex (m := m)
  generalize Nat.find hex = m at hspec hmin
  obtain ⟨hm, ch, hl⟩ := hspec
  obtain ⟨k, rfl⟩ := Nat.exists_eq_add_of_le hm
  obtain ⟨h1, h2, h3⟩ := stay k fun m ha hb ch hc => hmin m hb ⟨ha, ch, hc⟩
  have hok := r.ok (i + k)
  rw [hl, en _ _ h1 h2 h3] at hok
  exact ⟨i + k, by omega, h2, h1, (Option.some.inj hok).symm⟩

/-- Thread `t` executes the function of `make_thread` and is, with local context `c`, at the head of its loop at `i`.  The scheduler is strongly fair to it,
    it is not unregistered by a task that it executes in the loop, these tasks return, as do their destructors and the destructors of the tasks that are still
    queued when it unregisters; `init` and `shutdown` do not hold the global mutex for ever. -/
structure Ending (r : Run C) (t c : Nat) (f g : φ) (i : Nat) : Prop where
  fair : r.Strong t
  code : LoopEnd C f g
  at_ : AtLoop t c f [] (r.st i)
  keeps : r.Keeps t c [.client f]
  run : ∀ k b, r.Returns t (C.run k) [.core (.ran c k (.toWait b)), .client f]
  drop : ∀ k b, r.Returns t (C.destroy k) [.core (.freed c k (.toWait b)), .client f]
  free : ∀ k c l, r.Returns t (C.destroy k) [.core (.destroyList c l .internal .unit), .core .unregClear, .client g]
  glob : ∀ n, ∃ m, n ≤ m ∧ (r.st m).gOwner = none

variable {t c i n : Nat} {f g : φ}

theorem Ending.calm (h : Ending r t c f g i) (hr : Reach C d f0 (r.st 0)) : Calm r d f0 t c f [] :=
  ⟨hr, h.fair.just, h.keeps, h.run, h.drop⟩

/-- **C72, the loop.** The thread leaves the loop once it is told to exit: there is a moment at which it calls `unregister_this_thread`. -/
theorem C72_leaves (hr : Reach C d f0 (r.st 0)) (h : Ending r t c f g i) (hx : .exitSet c ∈ (r.st n).log) :
    ∃ j, i ≤ j ∧ AtLoop t c f [] (r.st j) ∧ (∀ m, i ≤ m → m ≤ j → [.client f] <:+ (r.st m).stk t) ∧
      (r.st (j + 1)).stk t = [.core .unreg, .client g] ∧ ((r.st (j + 1)).thr t).exc = none ∧ (r.st (j + 1)).loc t = some c := by
  obtain ⟨j, h1, h2, h3, ⟨ch, h4⟩, h5⟩ := (h.calm hr).leave h.code.toIsLoop h.at_ hx
  refine ⟨j, h1, h2, h3, ?_⟩
  have hok := r.ok j
  rw [h4, step_th (r.reach hr j) (r.good j).1 (r.good j).2 h2.stk h2.exc] at hok
  simp only [stepClient] at hok
  have hview : ((r.st j).view t).exit = true := by
    have : ((r.st j).thr t).loc = some c := h2.loc
    simp [St.view, St.notified, this, h5]
  split at hok
  · contradiction
  rename_i d' a hstep
  obtain rfl := h.code.leave _ _ _ _ _ _ hview hstep
  have hok := Option.some.inj hok
  exact ⟨by rw [← hok]; simp [St.stk, St.setStk, Api.entry], by rw [← hok]; simpa [St.setStk] using h2.exc,
    by rw [← hok]; simpa [St.setStk, St.loc] using h2.loc⟩

/-- **C72.** A thread of `make_thread` that is told to exit unregisters and ends. -/
theorem C72_ends (hr : Reach C d f0 (r.st 0)) (h : Ending r t c f g i) (hx : .exitSet c ∈ (r.st n).log) :
    ∃ j m, i ≤ j ∧ j < m ∧ (∀ q, i ≤ q → q ≤ j → [.client f] <:+ (r.st q).stk t) ∧ (r.st (j + 1)).stk t = [.core .unreg, .client g] ∧ (∃ id, .unregistered c id t ∈ (r.st m).log) ∧
      (r.st m).stk t = [] ∧ ((r.st m).thr t).status = .running ∧ r.st (m + 1) = stepEnd (r.st m) t := by
  obtain ⟨j, h1, h2, h3, h4, h5, h6⟩ := C72_leaves hr h hx
  have hj := h.fair.just
  -- unregister_this_thread
  obtain ⟨m1, ch1, o1⟩ := Run.ownF hr h.fair h4 h5 fun j' _ => by
    obtain ⟨m, hm, hg⟩ := h.glob j'
    refine ⟨m, hm, .go, ?_⟩
    simp only [stepCore, hg, Option.isSome_none, Bool.false_eq_true, if_false]
    split <;> rfl
  have s1 := o1.core hr
  simp only [stepCore] at s1
  have hw := WF.reach (r.reach hr m1)
  obtain ⟨-, hnat, hin⟩ := hw.loc t c (o1.loc.trans h6)
  have hfind : (r.st m1).find ((r.st m1).getId t) = some c := by
    rcases hin with ⟨id, hin⟩ | hin
    · have h7 : ((r.st m1).thr t).loc = some c := o1.loc.trans h6
      rw [show (r.st m1).getId t = id by simp [St.getId, h7, (hw.mem id c hin).2.1]]
      exact hw.toRegOK.find_of_mem hin
    · simp [Leaving, o1.stk] at hin
  split at s1
  · contradiction
  rw [hfind] at s1
  have s1 := Option.some.inj s1
  have e1 : (r.st (m1 + 1)).stk t = [.core (.release c .internal .unit), .core .unregClear, .client g] := by rw [← s1]; simp [St.stk, St.setStk]
  have l1 : Ev.unregistered c ((r.st m1).getId t) t ∈ (r.st (m1 + 1)).log := by
    rw [← s1]
    simp [St.setStk, St.hold, St.ev, St.setCtx, hnat]
  -- the context
  obtain ⟨m2, p2, e2, x2, -⟩ := Run.released hr hj (fun k l => h.free k c l) e1 (by rw [← s1]; simpa [St.setStk, St.hold, St.ev, St.setCtx] using o1.exc)
  -- unregClear
  obtain ⟨m3, ch3, o3⟩ := Run.own hr hj e2 x2 fun m _ => ⟨.go, by simp [stepCore]⟩
  have s3 := o3.core hr
  simp only [stepCore, Option.some.injEq] at s3
  obtain ⟨m4, ch4, o4⟩ := Run.own hr hj (i := m3 + 1) (g := .client g) (G := []) (by rw [← s3]; simp [St.stk, St.ret]) (by rw [← s3]; simpa [St.ret] using o3.exc) fun m _ => by
    obtain ⟨ch, hch⟩ := h.code.on' ((r.st m).view t) (r.st m).data ((r.st m).thr t).rv
    refine ⟨ch, ?_⟩
    simp only [stepClient]
    split
    · rename_i hn; rw [hn] at hch; cases hch
    · split <;> rfl
  have s4 := o4.client hr
  simp only [stepClient] at s4
  split at s4
  · contradiction
  rename_i d' a hstep
  obtain ⟨v, rfl⟩ := h.code.ret _ _ _ _ _ _ hstep
  have s4 := Option.some.inj s4
  have hrun := running_of_stk (FreeOK.reach (r.reach hr m4)) (t := t) (by rw [o4.stk]; simp)
  obtain ⟨m5, p5, r5, q5, e5⟩ := Run.ends hj (i := m4 + 1) (by rw [← s4]; simpa using hrun) (by rw [← s4]; simp [St.stk]) (by rw [← s4]; simpa using o4.exc)
  have := o1.le; have := o3.le; have := o4.le
  exact ⟨j, m5, h1, by omega, h3, h4, ⟨_, r.logm (by omega) l1⟩, r5, q5, e5⟩

/-- A thread that has ended is a zombie until it is joined or detached. -/
theorem zombie_step {s s' : St τ φ δ} {l : Lbl χ} {t : Nat} (hs : step C s l = some s') (hz : (s.thr t).status = .zombie) :
    (s'.thr t).status = .zombie ∨ (s'.thr t).status = .free := by
  cases l with
  | tick m => rw [step_tick C s s' m hs]; exact .inl hz
  | th u ch =>
    simp only [step] at hs
    split at hs
    · contradiction
    split at hs
    · contradiction
    rename_i hru
    have hru : (s.thr u).status = .running := by simpa using hru
    have hu : t ≠ u := by rintro rfl; rw [hz] at hru; cases hru
    split at hs
    · obtain rfl := Option.some.inj hs
      unfold stepExc
      repeat' split
      all_goals first | exact .inl hz | (simp [St.setStk, upd_ne _ _ hu, hz])
    · split at hs
      · obtain rfl := Option.some.inj hs
        simp [stepEnd, upd_ne _ _ hu, hz]
      · rcases stepCore_thr C s s' u _ _ ch hru hs with ⟨x, h, -⟩ | ⟨n, f, hn, h⟩ | ⟨n, hn, h⟩ | ⟨n, hn, h⟩
        · rw [h, upd_ne _ _ hu]; exact .inl hz
        · have : t ≠ n := by rintro rfl; rw [hz] at hn; cases hn
          rw [h, upd_ne _ _ hu, upd_ne _ _ this]; exact .inl hz
        · rw [h, upd_ne _ _ hu]
          by_cases hn' : t = n
          · subst hn'; simp
          · rw [upd_ne _ _ hn']; exact .inl hz
        · have : t ≠ n := by rintro rfl; rw [hz] at hn; cases hn
          rw [h, upd_ne _ _ hu, upd_ne _ _ this]; exact .inl hz
      · simp only [stepClient] at hs
        split at hs
        · contradiction
        · split at hs <;> obtain rfl := Option.some.inj hs
          all_goals simp [St.setStk, upd_ne _ _ hu, hz]

/-- `std::thread::join` of a thread that ends returns. -/
theorem Run.joins (hr : Reach C d f0 (r.st 0)) {u n j0 j m : Nat} {L : List (Frame τ φ)} (hu : r.Just u) (hst : (r.st j).stk u = .core (.joinIn n) :: L)
    (hx : ((r.st j).thr u).exc = none) (hl : ∀ q, j0 ≤ q → (∀ p, j ≤ p → p ≤ q → (r.st p).stk u = .core (.joinIn n) :: L) → ((r.st q).thr n).status ≠ .free) (hm : j0 ≤ m) (hend : r.st (m + 1) = stepEnd (r.st m) n) :
    ∃ q ch, r.Own u j (.core (.joinIn n) :: L) q ch ∧ ((r.st q).thr n).status = .zombie ∧ (r.st (q + 1)).stk u = L ∧ ((r.st (q + 1)).thr u).exc = none ∧ (r.st (q + 1)).data = (r.st q).data := by
  have hex : ∃ q, j ≤ q ∧ ∃ ch, r.lab q = .th u ch := by
    by_contra hcon
    push Not at hcon
    have hsame := fun q (hq : j ≤ q) => r.same hr hq (by rw [hst]; simp) fun m h1 _ => hcon m h1
    have hlive : ∀ q, j0 ≤ q → ((r.st q).thr n).status ≠ .free := fun q hq => hl q hq fun p hp _ => (hsame p hp).stk.trans hst
    have hz : ∀ k, ((r.st (m + 1 + k)).thr n).status = .zombie := by
      intro k
      induction k with
      | zero =>
        have h1 := hlive (m + 1) (by omega)
        have h2 : ((r.st (m + 1)).thr n).status = if ((r.st m).thr n).detached then .free else .zombie := by rw [hend]; simp [stepEnd]
        rw [h2] at h1
        show ((r.st (m + 1)).thr n).status = _
        rw [h2]
        split at h1
        · exact absurd rfl h1
        · rename_i hc; simp [hc]
      | succ k ih =>
        rcases zombie_step (r.ok (m + 1 + k)) ih with h | h
        · exact h
        · exact absurd h (hlive (m + 1 + k + 1) (by omega))
    obtain ⟨q, h1, ch, h2⟩ := hu (max (m + 1) j) fun q hq => by
      obtain ⟨k, rfl⟩ := Nat.exists_eq_add_of_le (show m + 1 ≤ q by omega)
      have hs := hsame (m + 1 + k) (by omega)
      refine ⟨.go, ?_⟩
      rw [step_th (r.reach hr _) (r.good _).1 (r.good _).2 (hs.stk.trans hst) (hs.exc.trans hx)]
      simp [stepCore, hz k]
    exact hcon q (by omega) ch h2
  obtain ⟨q2, ch2, ho⟩ := Run.Own.of hr hst (by simp) hx hex
  have hs := ho.core hr
  refine ⟨q2, ch2, ho, ?_⟩
  simp only [stepCore] at hs
  split at hs
  · rename_i hz
    have hs := Option.some.inj hs
    have hne : u ≠ n := by
      rintro rfl
      have := running_of_stk (FreeOK.reach (r.reach hr q2)) (t := u) (by rw [ho.stk]; simp)
      rw [hz] at this; cases this
    refine ⟨hz, by rw [← hs]; simp [St.stk, St.ret], ?_, by rw [← hs]; rfl⟩
    rw [← hs]
    simpa [St.ret, upd_ne _ _ hne] using ho.exc
  · contradiction

/-- `notify_for_exit` of a thread that executes the function of `make_thread`: it returns, and the thread is told to exit, by this call or another. -/
theorem Run.told {u id j : Nat} {G : List (Frame τ φ)} (hr : Reach C d f0 (r.st 0)) (E : Ending r n c f g i) (hu : r.Strong u) (hreg : .registered c id n ∈ (r.st j).log)
    (hst : (r.st j).stk u = .core (.exitLook id) :: G) (hx : ((r.st j).thr u).exc = none)
    (hd : ∀ k c l, r.Returns u (C.destroy k) (.core (.destroyList c l .notifyExit .unit) :: G)) :
    ∃ m q, j < m ∧ r.Over u (G) j m ∧ (r.st m).stk u = G ∧ ((r.st m).thr u).exc = none ∧ .exitSet c ∈ (r.st q).log := by
  obtain ⟨m2, ch2, o2⟩ := Run.ownF hr hu hst hx fun j' _ => by
    obtain ⟨m, hm, hg⟩ := E.glob j'
    refine ⟨m, hm, .go, ?_⟩
    simp only [stepCore, hg, Option.isSome_none, Bool.false_eq_true, if_false]
    split <;> rfl
  have hle := o2.le
  have s2 := o2.core hr
  simp only [stepCore] at s2
  split at s2
  · contradiction
  have hw := WF.reach (r.reach hr m2)
  obtain ⟨hc, hid, -⟩ := ((LInv.reach (r.reach hr m2)).regd c id n).1 (r.logm hle hreg)
  split at s2
  · -- the thread is not registered any more
    rename_i hf
    have s2 := Option.some.inj s2
    have hun : .unregistered c id n ∈ (r.st m2).log := by
      by_contra hcon
      have : InReg (r.st m2) c := by
        by_contra hni
        refine hcon (((LInv.reach (r.reach hr m2)).unr c id n).2 ⟨hc, hni, hid, ?_⟩)
        exact (((LInv.reach (r.reach hr m2)).regd c id n).1 (r.logm hle hreg)).2.2
      obtain ⟨i', hi'⟩ := this
      obtain ⟨-, h2, -⟩ := hw.mem i' c hi'
      rw [hw.toRegOK.find_of_mem (show (id, c) ∈ _ by rw [← hid, h2]; exact hi')] at hf
      cases hf
    have hex : ∃ q, .exitSet c ∈ (r.st q).log := by
      by_contra hcon
      push Not at hcon
      exact Loops.unr (d := d) ⟨E.calm hr, E.code.toIsLoop, hcon⟩ E.at_ _ _ _ hun
    obtain ⟨q, hq⟩ := hex
    exact ⟨m2 + 1, q, by omega, o2.over (p := []), by rw [← s2]; simp [St.stk, St.ret], by rw [← s2]; simpa [St.ret] using o2.exc, hq⟩
  · rename_i c' hf
    have s2 := Option.some.inj s2
    obtain rfl : c' = c := by
      obtain ⟨h1, h2, -⟩ := hw.mem _ _ (find_some hf)
      exact hw.inj _ _ h1 hc (h2.trans hid.symm)
    obtain ⟨m3, ch3, o3⟩ := Run.own hr hu.just (i := m2 + 1) (g := .core (.exitSet c')) (G := G) (by rw [← s2]; simp [St.stk, St.setStk])
      (by rw [← s2]; simpa [St.setStk, St.hold, St.setCtx] using o2.exc) fun m _ => ⟨.go, by simp only [stepCore]; split <;> rfl⟩
    have s3 := o3.core hr
    have hle3 := o3.le
    simp only [stepCore] at s3
    split at s3
    · have s3 := Option.some.inj s3
      have := (r.good (m3 + 1)).1
      rw [← s3] at this
      cases this
    have s3 := Option.some.inj s3
    obtain ⟨m4, h4, e4, x4, v4⟩ := Run.released hr hu.just (i := m3 + 1) (fun k l => hd k c' l) (by rw [← s3]; simp [St.stk, St.setStk])
      (by rw [← s3]; simpa [St.setStk, St.ev, St.setCtx] using o3.exc)
    exact ⟨m4, m3 + 1, by omega, ((o2.over (p := [])).trans (o3.over (p := []))).trans v4, e4, x4, by rw [← s3]; simp [St.setStk, St.ev, St.setCtx]⟩

/-- In an execution in which the stack of thread `t` is at the end not longer than `L`, and without an exception, everything that it calls above `L` returns. -/
theorem Run.returns_short (hr : Reach C d f0 (r.st 0)) {t N : Nat} (hexc : ∀ i, ((r.st i).thr t).exc = none) (g : φ) {L : List (Frame τ φ)}
    (hend : ∀ i, N ≤ i → ((r.st i).stk t).length ≤ L.length) : r.Returns t g L := by
  classical
  intro i hi _
  have suf : ∀ k, (∀ m, i < m → m ≤ i + k → (r.st m).stk t ≠ L) → ∃ x p, (r.st (i + k)).stk t = x :: (p ++ L) := by
    intro k
    induction k with
    | zero => intro _; exact ⟨_, [], hi⟩
    | succ k ih =>
      intro hno
      obtain ⟨x, p, h⟩ := ih fun m h1 h2 => hno m h1 (by omega)
      have hne := hno (i + (k + 1)) (by omega) (Nat.le_refl _)
      have hs : ∃ new, (r.st (i + k + 1)).stk t = new ++ (p ++ L) := by
        have hok := r.ok (i + k)
        generalize r.lab (i + k) = l at hok
        cases l with
        | tick n => rw [step_tick C _ _ n hok]; exact ⟨[x], h⟩
        | th u ch =>
          by_cases hu : t = u
          · subst hu; exact step_stk_self hok h
          · rcases step_stk_other' (FreeOK.reach (r.reach hr _)) hu hok with h1 | ⟨h1, -⟩
            · exact ⟨[x], h1.trans h⟩
            · rw [h] at h1; cases h1
      obtain ⟨new, hs⟩ := hs
      rw [show i + (k + 1) = i + k + 1 from rfl] at hne ⊢
      rw [← List.append_assoc] at hs
      rw [hs] at hne ⊢
      cases hc : new ++ p with
      | nil => rw [hc] at hne; exact absurd rfl hne
      | cons y q => exact ⟨y, q, rfl⟩
  have hex : ∃ m, i < m ∧ (r.st m).stk t = L := by
    by_contra hcon
    push Not at hcon
    obtain ⟨x, p, h⟩ := suf N fun m h1 _ => hcon m h1
    have := hend (i + N) (by omega)
    rw [h] at this
    simp at this
    omega
  have hspec := Nat.find_spec hex
  have hmin := fun m => Nat.find_min hex (m := m)
  generalize Nat.find hex = j at hspec hmin
  refine ⟨j, hspec.1, hspec.2, hexc j, fun m h1 h2 => ?_⟩
  rcases Nat.lt_or_eq_of_le h2 with h2 | rfl
  · obtain ⟨k, rfl⟩ := Nat.exists_eq_add_of_le h1
    obtain ⟨x, p, h⟩ := suf k fun m' h3 h4 hc => hmin m' (by omega) ⟨h3, hc⟩
    rw [h]
    exact ⟨x :: p, rfl⟩
  · rw [hspec.2]; exact List.suffix_refl _

/-- In an execution in which thread `t` ends, without an exception, everything that it calls returns. -/
theorem Run.returns_end (hr : Reach C d f0 (r.st 0)) {t N : Nat} (hend : ∀ i, N ≤ i → (r.st i).stk t = []) (hexc : ∀ i, ((r.st i).thr t).exc = none) (g : φ)
    (L : List (Frame τ φ)) : r.Returns t g L :=
  Run.returns_short hr hexc g (N := N) fun i hi => by rw [hend i hi]; simp

end
end Itc
