import Verif.Props.Notify
import Verif.Sync.Set

/-!
# Nobody sleeps through a ready future; waiters of a mutex (C32, C28)
-/
namespace Itc
open Core Sync
section
variable {α φ δ χ : Type} {A : App α φ δ χ} {ad : δ} {i0 : φ} {s0 s s' : SSt α φ δ}

/-- The shared state that a wait belongs to. -/
def futOf : W → Option Nat
  | .fw p => some p
  | .fv p _ => some p
  | _ => none

/-- Program points of `future::wait` / `wait_for` between the check of the status and the entry into the waiter list. -/
def early : SFrame α φ → Option Nat
  | .fwChk p => some p
  | .fvChk p _ => some p
  | .swIn w => futOf w
  | .wfIn w _ => futOf w
  | .wfAdd w _ _ => futOf w
  | _ => none

theorem futOf_gw {w : W} {p : Nat} (h : futOf w = some p) : w.gw p = 1 := by
  cases w <;> first
    | (cases h; done)
    | (obtain rfl := Option.some.inj h; simp [W.gw, one]; done)

theorem early_gw {f : SFrame α φ} {p : Nat} (h : early f = some p) : gw p f = 1 := by
  cases f <;> first
    | (cases h; done)
    | exact futOf_gw h
    | (obtain rfl := Option.some.inj h; simp [gw, one]; done)

theorem early_adj {l : SFrame α φ} {f : Fr α φ} (h : Adj (.client l) f) : early l = none := by
  cases l <;> first
    | rfl
    | (cases f <;> exact False.elim h)

theorem early_entry (a : SApi α) : early (φ := φ) a.entry = none := by cases a <;> rfl

def Early (d : SData α) (f : SFrame α φ) : Prop := ∀ p, early f = some p → d.ready p = false

theorem Early.none {d : SData α} {f : SFrame α φ} (h : early f = none) : Early d f := by
  intro n h'; rw [h] at h'; cases h'

theorem Early.same {d d' : SData α} {f g : SFrame α φ} (hp : Early d f) (h : early g = early f) (hl : d'.st = d.st) : Early d' g := by
  intro n h'; simp only [SData.ready, hl]; exact hp n (h ▸ h')

/-- The status of a shared state changes only when `srSet` is executed. -/
theorem ready_same (h1i : T1I s.data.sd) {t : Nat} {f : SFrame α φ} {d' : SData α} {a : Act (STask α) (SFrame α φ)}
    (hS : SS A.run A.destroy (s.view t) s.data.sd (s.thr t).rv f d' a) {p : Nat} (hf : ∀ r, f ≠ .srSet p r) : d'.ready p = s.data.sd.ready p := by
  by_cases hsp : special f
  · cases hS <;> first | exact False.elim hsp | skip
    case svBad => rfl
    case svVal q w h =>
      by_cases hq : p = q
      · subst hq; simp [SData.ready, SData.setSt]
      · simp [SData.ready, SData.setSt, set_ne _ _ hq]
    case svExn q w h =>
      by_cases hq : p = q
      · subst hq; simp [SData.ready, SData.setSt]
      · simp [SData.ready, SData.setSt, set_ne _ _ hq]
    case srVal q w =>
      have hq : p ≠ q := by rintro rfl; exact hf _ rfl
      simp [SData.ready, SData.setSt, SData.ev, set_ne _ _ hq]
    case srExn q w =>
      have hq : p ≠ q := by rintro rfl; exact hf _ rfl
      simp [SData.ready, SData.setSt, SData.ev, set_ne _ _ hq]
  · simp only [SData.ready, (quiet h1i hS hsp p).1.status]

theorem laNext_early {K : LK α} {c : Kont α} {b : Bool} {g : SFrame α φ} (h : (laNext K c b : Act (STask α) (SFrame α φ)).cont = some g ∨
    (laNext K c b : Act (STask α) (SFrame α φ)).callee = some (.client g)) : early g = none := by
  cases K <;> cases b <;> rcases h with h | h <;> first | (cases h; done) | (cases h; rfl)

def earlyTop (A : App α φ δ χ) (ad : δ) (f0 : φ) : STop A ad f0 where
  I _ := True
  P d _ f _ := Early d f
  triv {d t f v} h := Early.none (by cases f <;> first | rfl | exact False.elim h)
  entry := Early.none (early_entry _)
  ftSet := Early.none rfl
  pdIn := Early.none rfl
  step := by
    intro s t f rest d' a hj _ he hst hp hS
    refine ⟨trivial, fun u g r v hu hgu hpg p h => ?_, ?_⟩
    · rw [ready_same (ty1_I hj) hS, hpg p h]
      rintro r rfl
      exact hu (guard_excl hj (g := .srSet p r) (g' := g) (by rw [hst]; simp) (by simp [gw, one]) (by rw [hgu]; simp) (early_gw h))
    cases hS
    case laRet K c =>
      generalize hx : (laNext K c _ : Act (STask α) (SFrame α φ)) = a
      cases a with
      | goto g => exact Early.none (laNext_early (.inl (by rw [hx]; rfl)))
      | push g k => exact Early.none (laNext_early (.inr (by rw [hx]; rfl)))
      | ret v => exact fun l rest' _ hadj => Early.none (early_adj hadj)
      | terminate => exact hp
      | _ => trivial
    case laEnd K c =>
      generalize hx : (laNext K c _ : Act (STask α) (SFrame α φ)) = a
      cases a with
      | goto g => exact Early.none (laNext_early (.inl (by rw [hx]; rfl)))
      | push g k => exact Early.none (laNext_early (.inr (by rw [hx]; rfl)))
      | ret v => exact fun l rest' _ hadj => Early.none (early_adj hadj)
      | terminate => exact hp
      | _ => trivial
    case fwNot p h => intro q hq; cases hq; exact h
    case fvNot p dur h => intro q hq; cases hq; exact h
    all_goals first
      | trivial
      | exact fun l rest' _ hadj => Early.none (early_adj hadj)
      | exact Early.none rfl
      | exact Early.same hp rfl rfl
  core _ _ _ hadj _ := Early.none (early_adj hadj)
  handler := by
    intro s t f rest e f' hj hi hst he hf
    cases f <;> first
      | (cases hf; done)
      | (have hf := Option.some.inj hf; subst hf; exact Early.none rfl)
      | skip
    simp only [sThrow, Option.map_eq_some_iff] at hf
    obtain ⟨x, -, rfl⟩ := hf
    exact Early.none rfl

/-- A thread that has checked the status and not yet entered the waiter list: the state is not ready. -/
theorem early_not (h : SR A ad i0 s) {t : Nat} {f : SFrame α φ} {rest : List (Fr α φ)} (hst : s.stk t = .client f :: rest)
    (he : (s.thr t).exc = none) {p : Nat} (hp : early f = some p) : s.data.sd.ready p = false :=
  ((earlyTop A ad i0).sound trivial h).2 t f rest hst he p hp

/-- A thread about to take the waiters stays there until it does so. -/
theorem na_stays (hr : SR A ad i0 s) {v : Nat} {K : NK α} {rest : List (Fr α φ)} (hst : s.stk v = .client (.naIn K) :: rest) {l : Lbl χ}
    (hs : step (client A) s l = some s') : s'.stk v = .client (.naIn K) :: rest ∨ (s'.data.sd.sem K.sem = [] ∧
      s'.data.sd.slog = .took v K.sem (s.data.sd.sem K.sem) :: s.data.sd.slog) := by
  by_cases hl : ∃ ch, l = .th v ch
  · obtain ⟨ch, rfl⟩ := hl
    obtain ⟨a, hS, hact⟩ := own_ss hst hs (nt_exc hr hst trivial) (by simp)
    generalize s'.data.sd = d at hS
    cases hS
    exact .inr ⟨by simp, rfl⟩
  · push Not at hl
    exact .inl ((still hr (by rw [hst]; simp) hs hl).1.trans hst)

/-- Waiters of a ready state are about to be taken. -/
theorem ready_waiters (hr : SR A ad i0 s) : ∀ {p : Nat} {x : Nat × Nat}, x ∈ s.data.sd.sem (.fut p) → s.data.sd.ready p = true →
    ∃ v cs rest, s.stk v = .client (.naIn (.fut p cs)) :: rest := by
  refine Reach.induct (fun s => ∀ {p : Nat} {x : Nat × Nat}, x ∈ s.data.sd.sem (.fut p) → s.data.sd.ready p = true →
    ∃ v cs rest, s.stk v = .client (.naIn (.fut p cs)) :: rest) ?_ ?_ hr
  · intro p x h; simp [Core.init] at h
  · intro s l s' hr ih hs p x hx hrd
    have old : x ∈ s.data.sd.sem (.fut p) → s.data.sd.ready p = true → ∃ v cs rest, s'.stk v = .client (.naIn (.fut p cs)) :: rest := by
      intro h1 h2
      obtain ⟨v, cs, rest, hst⟩ := ih h1 h2
      rcases na_stays hr hst hs with h | ⟨h, -⟩
      · exact ⟨v, cs, rest, h⟩
      · simp only [NK.sem] at h; rw [h] at hx; simp at hx
    rcases step_sd hs with h | ⟨t, ch, f, rest, a, rfl, hexc, hst, hS⟩
    · rw [h] at hx hrd; exact old hx hrd
    · by_cases hsr : ∃ r, f = .srSet p r
      · obtain ⟨r, rfl⟩ := hsr
        obtain ⟨a, hS, hact⟩ := own_ss hst hs hexc (by simp)
        generalize s'.data.sd = d at hS
        cases hS <;> exact ⟨t, _, _, hact.1⟩
      · push Not at hsr
        have hrd' : s.data.sd.ready p = true := by rw [← ready_same (ty1_I hr) hS hsr]; exact hrd
        by_cases hx0 : x ∈ s.data.sd.sem (.fut p)
        · exact old hx0 hrd'
        exfalso
        have sub : ∀ {S : SemId} {r : List (Nat × Nat)}, s'.data.sd.sem = set s.data.sd.sem S r → (∀ y ∈ r, y ∈ s.data.sd.sem S) → False := by
          intro S r h1 h2
          rw [h1] at hx
          by_cases hS : SemId.fut p = S
          · subst hS; rw [set_same] at hx; exact hx0 (h2 x hx)
          · rw [set_ne _ _ hS] at hx; exact hx0 hx
        cases sem_eff hS with
        | quiet h1 => rw [h1] at hx; exact hx0 hx
        | add w hf hn h1 =>
          rw [h1] at hx
          by_cases hS : SemId.fut p = w.sem
          · have hw : futOf w = some p := by cases w <;> cases hS <;> rfl
            have : early f = some p := by rcases hf with rfl | ⟨_, _, rfl⟩ <;> exact hw
            rw [early_not hr hst hexc this] at hrd'; cases hrd'
          · rw [set_ne _ _ hS] at hx; exact hx0 hx
        | rem w i k y hf h1 => exact sub h1 (fun y hy => (List.mem_filter.1 hy).1)
        | take S l r hl hf h1 => exact sub h1 (fun y hy => by rw [hl]; simp [hy])
        | sig K i k l hf hi h1 => rw [h1] at hx; exact hx0 hx

/-- A registered thread is blocked in `future::wait` or `wait_for` on a state that is ready.  Then it can wake up at once; or somebody is about to signal it or is bringing
    the wake-up (`Delivering`, or the setter is about to take the waiters); or a later wait of the same thread on the same future, nested in a task
    processed by this wait, ended by time-out or exit and removed its entry.

    The last case is the defect: the full claim is false, see `C32_lost`. -/
theorem C32_no_sleep_partial (hr : SR A ad i0 s) (hub : s.ub = false) (hterm : s.term = false) {u p i k : Nat} (hrd : s.data.sd.ready p = true)
    (hb : BlockedIn s u (.fut p) i k) : CanWake (client A) s u ∨ (∃ v, Delivering s v i k) ∨
    (∃ v cs rest, s.stk v = .client (.naIn (.fut p cs)) :: rest) ∨
    ∃ l k' y, .left u (.fut p) l k' y ∈ s.data.sd.slog ∧ (i, k) ∈ l ∧ y ≠ .sig := by
  have hb' := hb
  obtain ⟨c, dl, g, rest, hst, hw, hfind⟩ := hb'
  have hg : .client g ∈ s.stk u := by rw [hst]; simp
  have hi : i ≠ 0 := by
    have hc := (WF.reach hr).mem i c (find_some hfind)
    have := (WF.reach hr).ids c hc.1
    omega
  obtain ⟨u', hent⟩ := wait_entered hr hg hw
  rcases fate hr hent hi with h | h | ⟨w, g, h1, h2⟩ | ⟨w, l, k', y, h1, h2⟩
  · exact .inr (.inr (.inl (ready_waiters hr h hrd)))
  · rcases blocked_wakes hr hub hterm hb h with h | ⟨v, -, h⟩
    · exact .inl h
    · exact .inr (.inl ⟨v, h⟩)
  · exact .inr (.inl ⟨w, g, h1, .inl h2⟩)
  · obtain ⟨rfl, hy⟩ := (ni hr).lost u g _ _ _ hg hw hi w l k' y h1 h2
    exact .inr (.inr (.inr ⟨l, k', y, h1, h2, hy⟩))

/-- The full claim for a thread whose waits on this future, so far, ended only by being signalled (in particular for any thread that does not wait on the same future
    in a nested way). -/
theorem C32_no_sleep (hr : SR A ad i0 s) (hub : s.ub = false) (hterm : s.term = false) {u p i k : Nat} (hrd : s.data.sd.ready p = true)
    (hb : BlockedIn s u (.fut p) i k) (hn : ∀ l k' y, .left u (.fut p) l k' y ∈ s.data.sd.slog → (i, k) ∉ l) : CanWake (client A) s u ∨ (∃ v, Delivering s v i k) ∨
    (∃ v cs rest, s.stk v = .client (.naIn (.fut p cs)) :: rest) := by
  rcases C32_no_sleep_partial hr hub hterm hrd hb with h | h | h | ⟨l, k', y, h1, h2, -⟩
  · exact .inl h
  · exact .inr (.inl h)
  · exact .inr (.inr h)
  · exact absurd h2 (hn l k' y h1)

/-! ## mutex::lock -/

/-- The flag of a mutex is cleared by `unlock` only. -/
theorem flag_keep {run destroy : α → φ} {v : View} {d d' : SData α} {rv : Val} {f : SFrame α φ} {a : Act (STask α) (SFrame α φ)}
    (hS : SS run destroy v d rv f d' a) {m : Nat} (h : d.flag m = true) (hf : ∀ j, f ≠ .muFlag m j) : d'.flag m = true := by
  cases hS
  case swIn => unfold SData.addWaiter; split <;> exact h
  case wfAdd => unfold SData.addWaiter; split <;> exact h
  case swBefore w i k => unfold SData.relLk; split <;> exact h
  case wfBefore w i k => unfold SData.relLk; split <;> exact h
  case muFlag m' j =>
    by_cases hm : m = m'
    · subst hm; exact absurd rfl (hf _)
    · simpa [set_ne _ _ hm] using h
  all_goals first
    | exact h
    | (rename_i m' _ _; by_cases hm : m = m' <;> [(subst hm; simp); (simpa [set_ne _ _ hm] using h)])
    | (rename_i m' _; by_cases hm : m = m' <;> [(subst hm; simp); (simpa [set_ne _ _ hm] using h)])

/-- What holds of a waiter that entered the list of mutex `m` while the mutex was held. -/
theorem mtx_waiter (hr : SR A ad i0 s0) {m i k u : Nat} (hfl : s0.data.sd.flag m = true) (hent : .enter u (.mtx m) i k ∈ s0.data.sd.slog)
    {ls : List (Lbl χ)} (hrun : run (client A) s0 ls = some s) :
    s.data.sd.flag m = true ∨ (∃ v rest, s.stk v = .client (.naIn (.mtx m)) :: rest) ∨ k ∈ gone s.data.sd.slog := by
  have key : ∀ (s0 : SSt α φ δ), SR A ad i0 s0 → .enter u (.mtx m) i k ∈ s0.data.sd.slog →
      (s0.data.sd.flag m = true ∨ (∃ v rest, s0.stk v = .client (.naIn (.mtx m)) :: rest) ∨ k ∈ gone s0.data.sd.slog) → run (client A) s0 ls = some s →
      (s.data.sd.flag m = true ∨ (∃ v rest, s.stk v = .client (.naIn (.mtx m)) :: rest) ∨ k ∈ gone s.data.sd.slog) := by
    clear hrun hent hfl hr
    induction ls with
    | nil => intro s0 hr hent h hrun; cases hrun; exact h
    | cons l ls ih =>
      intro s0 hr hent h hrun
      simp only [run] at hrun
      split at hrun
      · cases hrun
      rename_i s1 hs
      refine ih s1 (hr.step hs) (slog_mono hs hent) ?_ hrun
      rcases h with h | ⟨v, rest, hst⟩ | h
      · by_cases hf1 : s1.data.sd.flag m = true
        · exact .inl hf1
        · refine .inr (.inl ?_)
          rcases step_sd hs with hd | ⟨t, ch, f, rest, a, rfl, hexc, hst, hS⟩
          · rw [hd] at hf1; exact absurd h hf1
          · by_cases hf : ∃ j, f = .muFlag m j
            · obtain ⟨j, rfl⟩ := hf
              obtain ⟨a, hS, hact⟩ := own_ss hst hs hexc (by simp)
              generalize s1.data.sd = d at hS
              cases hS
              exact ⟨t, _, hact.1⟩
            · exact absurd (flag_keep hS h (fun j hj => hf ⟨j, hj⟩)) hf1
      · rcases na_stays hr hst hs with h | ⟨h, h'⟩
        · exact .inr (.inl ⟨v, rest, h⟩)
        · refine .inr (.inr ?_)
          have hI := sem_I hr
          rcases hI.cov k (hI.entLt hent) with h1 | ⟨S', x, hx, rfl⟩
          · exact gone_mono hs h1
          · obtain ⟨z, hz⟩ := hI.ent (i := x.1) (k := x.2) hx
            obtain ⟨-, rfl, rfl⟩ := hI.entUq hent hz
            rw [h']
            simp only [gone, List.flatMap_cons, List.mem_append, goneT]
            exact .inl (List.mem_map.2 ⟨x, hx, rfl⟩)
      · exact .inr (.inr (gone_mono hs h))
  exact key s0 hr hent (.inl hfl) hrun

/-- A registered thread is blocked in `mutex::lock` of `m`, having entered the waiter list at a time (`s0`) when the mutex was held, and in `s` the mutex is free.  Then
    it can wake up at once; or somebody is about to signal it or is bringing the wake-up (`Delivering`, or an unlocking thread is about to take the waiters); or another
    lock of the same thread, in a task processed while waiting, ended by exit and removed its entry.

    Two things are missing from the full claim: a thread that found the mutex held, and entered the list only after it had been released, sleeps while the mutex is free (a defect,
    see `C28_lost`); and the last case. -/
theorem C28_waiter_partial (hr : SR A ad i0 s0) {m i k u : Nat} (hfl : s0.data.sd.flag m = true) {g : SFrame α φ} (hg : .client g ∈ s0.stk u)
    (hw : wtok g = some (.mtx m, i, k)) {ls : List (Lbl χ)} (hrun : run (client A) s0 ls = some s) (hub : s.ub = false) (hterm : s.term = false)
    (hfree : s.data.sd.flag m = false) (hb : BlockedIn s u (.mtx m) i k) :
    CanWake (client A) s u ∨ (∃ v, Delivering s v i k) ∨ (∃ v rest, s.stk v = .client (.naIn (.mtx m)) :: rest) ∨
    ∃ l k' y, .left u (.mtx m) l k' y ∈ s.data.sd.slog ∧ (i, k) ∈ l ∧ y ≠ .sig := by
  have hr' := run_reach hrun hr
  have hb' := hb
  obtain ⟨c, dl, g', rest, hst, hw', hfind⟩ := hb'
  have hi : i ≠ 0 := by
    have hc := (WF.reach hr').mem i c (find_some hfind)
    have := (WF.reach hr').ids c hc.1
    omega
  obtain ⟨u', hent⟩ := wait_entered hr hg hw
  rcases mtx_waiter hr hfl hent hrun with h | h | hgn
  · rw [hfree] at h; cases h
  · exact .inr (.inr (.inl h))
  rcases fate hr' (run_slog hrun hent) hi with h | h | ⟨w, g, h1, h2⟩ | ⟨w, l, k', y, h1, h2⟩
  · exact absurd hgn ((sem_I hr').goneSem h)
  · rcases blocked_wakes hr' hub hterm hb h with h | ⟨v, -, h⟩
    · exact .inl h
    · exact .inr (.inl ⟨v, h⟩)
  · exact .inr (.inl ⟨w, g, h1, .inl h2⟩)
  · obtain ⟨rfl, hy⟩ := (ni hr').lost u g' _ _ _ (by rw [hst]; simp) hw' hi w l k' y h1 h2
    exact .inr (.inr (.inr ⟨l, k', y, h1, h2, hy⟩))

end

/-! ## Concrete cases -/

set_option synthInstance.maxSize 1024
set_option synthInstance.maxHeartbeats 400000

/-- Main waits for a future; thread 1 satisfies the promise. -/
def demo12 : List (SAct Nat Nat) :=
  [.core .registerThis 2, .core (.spawn 1 10) 3, .sync (.promNew 0 false) 4, .sync (.getFuture 0) 5, .sync (.futWait (some 0)) 6, .ret .unit,
   .ret .unit, .ret .unit, .ret .unit, .sync (.promSet 0 (.val (.nat 7))) 11, .ret .unit]

/-- Main is blocked, thread 1 has set the value and is about to signal the waiters: hypotheses of `C32_no_sleep_partial`. -/
example : ∃ s, SR (tableApp demo12) () 1 s ∧ (s.data.sd.ready 0, s.term, s.find 1, s.stk 0) =
    (true, false, some 0, [.core (.parked 0 none), .client (.swAfter (.fw 0) 1 0), .client (.app 6)]) :=
  swit (ls := go 0 20 ++ go 1 5) (hnd := fun _ => none) (fun s => (s.data.sd.ready 0, s.term, s.find 1, s.stk 0)) (by decide +kernel)

/-- Main waits for a future and meanwhile runs a task, given to it by thread 1, that waits for the same future for 5 ns; then thread 1
    satisfies the promise. -/
def demo10 : List (SAct Nat Nat) :=
  [.core .registerThis 2, .core (.spawn 1 10) 3, .sync (.promNew 0 false) 4, .sync (.getFuture 0) 5, .sync (.futWait (some 0)) 6, .ret .unit,
   .ret .unit, .ret .unit, .ret .unit, .core (.invoke 1 20) 11, .sync (.promSet 0 (.val (.nat 7))) 12, .ret .unit,
   .ret .unit, .ret .unit, .ret .unit, .ret .unit, .ret .unit, .ret .unit, .ret .unit, .sync (.futWaitFor (some 0) 5) 21, .ret .unit]

/-- A defect (`remove_waiter`, semaphore.cpp:178-189, removes by thread id): the inner wait times out and removes the waiter entry of the outer
    wait too.  Thread 1 then sets the value and ends.  Main stays blocked on a ready future: it is not signalled, it has no task, it
    cannot wake up, and no other thread exists. -/
theorem C32_lost : ∃ s, SR (tableApp demo10) () 1 s ∧
    ((s.data.sd.ready 0, s.data.sd.tok 0), s.stk 0, (s.stk 1, (s.ctxs 0).pend), s.find 1, (step (demo demo10) s (.th 0 .go)).isNone) =
      ((true, false), [.core (.parked 0 none), .client (.swAfter (.fw 0) 1 0), .client (.app 6)], ([], []), some 0, true) :=
  swit (ls := go 0 20 ++ go 1 4 ++ go 0 13 ++ [.tick 9, .th 0 .timeout] ++ go 0 14 ++ go 1 12) (hnd := fun _ => none)
    (fun s => ((s.data.sd.ready 0, s.data.sd.tok 0), s.stk 0, (s.stk 1, (s.ctxs 0).pend), s.find 1, (step (demo demo10) s (.th 0 .go)).isNone)) (by decide +kernel)

/-- Main and thread 1 lock mutex 0. -/
def demo11 : List (SAct Nat Nat) :=
  [.core .registerThis 2, .core (.spawn 1 10) 3, .sync (.mLock 0) 4, .ret .unit, .ret .unit, .ret .unit,
   .ret .unit, .ret .unit, .ret .unit, .core .registerThis 11, .sync (.mLock 0) 12, .sync (.mUnlock 0) 13, .ret .unit]

/-- A defect of `mutex::lock` (mutex.hpp:24-38: `test_and_set` and the entry into the waiter list are not atomic): main finds the mutex held, thread 1 unlocks it and finds no waiter, main
    enters the waiter list and sleeps.  The mutex is free, thread 1 has ended, and main cannot wake up. -/
theorem C28_lost : ∃ s, SR (tableApp demo11) () 1 s ∧
    (s.data.sd.flag 0, s.stk 0, (s.stk 1, (s.ctxs 0).pend), s.find 1, (step (demo demo11) s (.th 0 .go)).isNone) =
      (false, [.core (.parked 0 none), .client (.swAfter (.mtx 0 1) 1 0), .client (.app 4)], ([], []), some 0, true) :=
  swit (ls := go 0 6 ++ go 1 8 ++ go 0 3 ++ go 1 7 ++ go 0 6) (hnd := fun _ => none)
    (fun s => (s.data.sd.flag 0, s.stk 0, (s.stk 1, (s.ctxs 0).pend), s.find 1, (step (demo demo11) s (.th 0 .go)).isNone)) (by decide +kernel)

/-- Main entered the waiter list while thread 1 held the mutex: hypotheses of `C28_waiter_partial` at `s0`. -/
example : ∃ s, SR (tableApp demo11) () 1 s ∧ (s.data.sd.flag 0, s.stk 0, s.find 1) =
      (true, [.core (.parked 0 none), .client (.swAfter (.mtx 0 1) 1 0), .client (.app 4)], some 0) :=
  swit (ls := go 0 6 ++ go 1 8 ++ go 0 9) (hnd := fun _ => none) (fun s => (s.data.sd.flag 0, s.stk 0, s.find 1)) (by decide +kernel)

/-- ... and then thread 1 releases it: hypotheses of `C28_waiter_partial` at `s`. -/
example : ∃ s, SR (tableApp demo11) () 1 s ∧ (s.data.sd.flag 0, s.stk 0, s.find 1) =
      (false, [.core (.parked 0 none), .client (.swAfter (.mtx 0 1) 1 0), .client (.app 4)], some 0) :=
  swit (ls := go 0 6 ++ go 1 8 ++ go 0 9 ++ go 1 4) (hnd := fun _ => none) (fun s => (s.data.sd.flag 0, s.stk 0, s.find 1)) (by decide +kernel)

end Itc
