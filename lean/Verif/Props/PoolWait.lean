import Verif.Pool.Ret
import Verif.Pool.Demo
import Verif.Props.PoolJobs

/-!
# C47: waiting for the jobs of a thread pool

Events: `waits t i id o`, `waitsAll t i m` - wait / wait_all of thread `t` looks into pool `i` under the lock; `waited t i k p x r` - the wait for the
state `p` is over, the thread is notified for exit if `x`, registered if `r`; `waitRet t i k ps` - the call whose event `waits` / `waitsAll` is number `k` of
the log returns.
-/
namespace Itc
open Core Sync Pool

/-! ## Specification -/

/-- The event is that of wait(id) or of wait_all. -/
def Waits {α : Type} (t i id : Nat) : PEv α → Prop
  | .waits u j id' _ => u = t ∧ j = i ∧ id' = id
  | .waitsAll u j _ => u = t ∧ j = i
  | _ => False

section
variable {α φ δ χ : Type} {U : PApp α φ δ χ} {u0 : δ} {f0 : φ} {s s' : PSt α φ δ}

/-- The job is finished: its future is ready and its function is not being executed. -/
def Finished (s : PSt α φ δ) (c : Call α) : Prop :=
  (s.data.sd.st c.u).status ≠ .notSet ∧ ∀ w, .bodyStart w c.u ∈ s.data.sd.slog →
    (∃ v, .bodyRet w c.u v ∈ s.data.sd.slog) ∨ ∃ e, .bodyThrew w c.u e ∈ s.data.sd.slog

/-- Stop, stop_all or the destructor of the pool erased the job before it was started. -/
def Discarded (i id : Nat) (c : Call α) (l : List (PEv α)) : Prop := ∃ t, .stopped t i id c ∈ l ∨ .discarded t i id c ∈ l

theorem fin_p (hr : PR U u0 f0 s) {i id : Nat} {c : Call α} (hc : Schd s.data.ad i id c) (h : rdy s.data.sd c.p) : Finished s c := by
  have h1 := up_ready hr hc h.2
  exact ⟨by simpa [SData.ready] using h1, fun w hw => over_ended hr hc h1 hw⟩

/-- Jobs with an id have one call. -/
theorem sched_one (hr : PR U u0 f0 s) {t t' i id : Nat} {c c' : Call α} {g g' : Grp} (h : .sched t i id c g ∈ s.data.ad.plog)
    (h' : .sched t' i id c' g' ∈ s.data.ad.plog) : c = c' := by
  obtain ⟨l1, l2, hl, -, -, -, hn⟩ := (hist hr).mem h
  obtain ⟨l1', l2', hl', -, -, -, hn'⟩ := (hist hr).mem h'
  have hmem : ∀ {t c g} {l : List (PEv α)}, .sched t i id c g ∈ l → id ∈ schedIds i l := fun hm =>
    List.mem_filterMap.2 ⟨_, hm, by simp [PEv.schedId]⟩
  rw [hl] at hl' h'
  rcases List.mem_append.1 h' with h1 | h1
  · obtain ⟨a, b, rfl⟩ := List.append_of_mem h1
    rw [List.append_assoc, List.cons_append] at hl
    exact ((hist hr _ _ _ hl).2.2.2 (hmem (t := t) (c := c) (g := g) (by simp))).elim
  · rcases List.mem_cons.1 h1 with h1 | h1
    · cases h1; rfl
    · exact (hn (hmem h1)).elim

/-- **C47 (part).** When wait(id) or wait_all of a pool has returned, its call (event number `k`) was such that every job that it waits for and that had been
    inserted by then is finished, or was discarded - provided that the waiting thread was not told to exit.
    Missing: an unregistered thread does not wait at all (`C47_unregistered`), and a job that a stop_all has made the pool forget while it was executing is not
    waited for (`C47_forgotten`); the claim does not hold in these cases. -/
theorem C47_partial (hr : PR U u0 f0 s) {t i k : Nat} {ps : List Nat} (h : .waitRet t i k ps ∈ s.data.ad.plog) :
    ∃ l1 e l, s.data.ad.plog = l1 ++ e :: l ∧ l.length = k ∧ (∃ id, Waits t i id e) ∧
      ∀ id, Waits t i id e → ∀ u c g, .sched u i id c g ∈ l → (∀ v, .forgot v i id ∉ l) → (∀ p, .waited t i k p true false ∉ s.data.ad.plog) →
        (Finished s c ∨ Discarded i id c l) ∨ ∃ p, .waited t i k p true true ∈ s.data.ad.plog := by
  obtain ⟨⟨e, ⟨l1, l, hl, hk⟩, ho⟩, hw⟩ := (iy hr).ret h
  have hf := hist hr l1 e l hl
  have hin : ∀ {x}, x ∈ l → x ∈ s.data.ad.plog := fun hx => by rw [hl]; exact List.mem_append_right _ (List.mem_cons_of_mem _ hx)
  -- jobs that are gone
  have gone : ∀ id u c g, .sched u i id c g ∈ l → (∀ v, .forgot v i id ∉ l) → id ∈ goneIds i l → Finished s c ∨ Discarded i id c l := by
    intro id u c g hs hno hg
    obtain ⟨x, hx, hi⟩ := List.mem_filterMap.1 hg
    have hc : Schd s.data.ad i id c := ⟨u, g, hin hs⟩
    have cut : ∀ {c'}, Cut s.data.ad i id c' → c' = c := fun hcut => by
      obtain ⟨u', g', hs'⟩ := hcut.schd hr
      exact sched_one hr hs' (hin hs)
    cases x <;> simp only [PEv.goneId, reduceCtorEq] at hi <;> split at hi <;> cases hi <;> subst_vars
    case stopped t' c' _ => rw [← cut ⟨t', .inl (hin hx)⟩]; exact .inr ⟨t', .inl hx⟩
    case discarded t' c' _ => rw [← cut ⟨t', .inr (hin hx)⟩]; exact .inr ⟨t', .inr hx⟩
    case forgot t' _ => exact (hno _ hx).elim
    case done t' c' _ =>
      obtain ⟨m1, m2, hm, w, L, hd, ht⟩ := (hist hr).mem (hin hx)
      obtain ⟨u', g', hs'⟩ := took_schd hr (by rw [hm]; exact List.mem_append_right _ (List.mem_cons_of_mem _ ht))
      rw [← sched_one hr hs' (hin hs)]
      exact .inl (fin_p hr ⟨u', g', hs'⟩ ((iy hr).done (hin hx)))
  have fin : ∀ id u c g, .sched u i id c g ∈ l → c.p ∈ ps → (∀ p, .waited t i k p true false ∉ s.data.ad.plog) →
      (Finished s c ∨ Discarded i id c l) ∨ ∃ p, .waited t i k p true true ∈ s.data.ad.plog := by
    intro id u c g hs hp hn
    rcases hw _ hp with h1 | ⟨r, h1⟩
    · exact .inl (.inl (fin_p hr ⟨u, g, hin hs⟩ h1))
    · cases r
      · exact (hn _ h1).elim
      · exact .inr ⟨_, h1⟩
  refine ⟨l1, e, l, hl, hk, ?_, ?_⟩
  · cases e <;> try exact ho.elim
    case waits u j id o => cases o <;> exact ⟨id, ho.1, ho.2.1, rfl⟩
    case waitsAll u j m => exact ⟨0, ho.1, ho.2.1⟩
  · intro id hid u c g hs hno hn
    cases e <;> try exact hid.elim
    case waits u' j id' o =>
      obtain ⟨rfl, rfl, rfl⟩ := hid
      cases o with
      | none =>
        rcases hf with h1 | h1
        · exact (h1 (List.mem_filterMap.2 ⟨_, hs, by simp [PEv.schedId]⟩)).elim
        · exact .inl (gone _ _ _ _ hs hno h1)
      | some p =>
        obtain ⟨-, u2, c2, g2, h2, rfl⟩ := hf
        cases sched_one hr (hin h2) (hin hs)
        exact fin _ _ _ _ hs (by rw [ho.2.2]; simp) hn
    case waitsAll u' j m =>
      obtain ⟨rfl, rfl⟩ := hid
      by_cases hg : id ∈ goneIds j l
      · exact .inl (gone _ _ _ _ hs hno hg)
      · have h1 : id ∈ m.map (·.1) := by
          rw [hf.1]
          simp only [List.mem_reverse, List.mem_filter, decide_not, Bool.not_eq_true', decide_eq_false_iff_not]
          exact ⟨List.mem_filterMap.2 ⟨_, hs, by simp [PEv.schedId]⟩, hg⟩
        obtain ⟨x, hx, rfl⟩ := List.mem_map.1 h1
        obtain ⟨u2, c2, g2, h2, h3⟩ := hf.2 x hx
        cases sched_one hr (hin h2) (hin hs)
        exact fin _ _ _ _ hs (by rw [ho.2.2, h3]; exact List.mem_map_of_mem hx) hn

/-- The exit that ends a wait: the thread is registered and was told to exit. -/
theorem C47_exit (hr : PR U u0 f0 s) {t i k p : Nat} (h : .waited t i k p true true ∈ s.data.ad.plog) :
    ∃ c id, Ev.registered c id t ∈ s.log ∧ Ev.exitSet c ∈ s.log := by
  revert t i k p
  refine Reach.induct (fun s : PSt α φ δ => ∀ {t i k p : Nat}, .waited t i k p true true ∈ s.data.ad.plog →
    ∃ c id, Ev.registered c id t ∈ s.log ∧ Ev.exitSet c ∈ s.log) ?_ ?_ hr
  · intro t i k p h; simp [Core.init] at h
  · intro s l s' hr q hs u i k p h
    cases l with
    | tick n => rw [step_tick _ s s' n hs] at h ⊢; exact q h
    | th t ch =>
      have hmono := log_mono (step_eff _ _ _ _ _ hs)
      have old : .waited u i k p true true ∈ s.data.ad.plog → ∃ c id, Ev.registered c id u ∈ s'.log ∧ Ev.exitSet c ∈ s'.log := fun h => by
        obtain ⟨c, id, h1, h2⟩ := q h
        exact ⟨c, id, hmono _ h1, hmono _ h2⟩
      cases mv hr hs with
      | sync f rest a he hst hS hact had => rw [had] at h; exact old h
      | hand e f f' rest he hst hn hf hst' he' hd had => rw [had] at h; exact old h
      | drop e f rest he hst hn hf hst' he' hd had => rw [had] at h; exact old h
      | core f rest pre hst hpre hst' hd had => rw [had] at h; exact old h
      | still hst' he' hd had => rw [had] at h; exact old h
      | app g rest a he hst hd hact hA =>
        obtain ⟨ch', hA⟩ := hA
        have new : u = t → (s.view t).exit = true → (s.view t).reg = true → ∃ c id, Ev.registered c id u ∈ s'.log ∧ Ev.exitSet c ∈ s'.log := by
          rintro rfl h1 h2
          rcases (notified_iff hr u).1 h1 with h3 | ⟨c, h3, h4⟩
          · have h2 : (s.loc u).isSome = true := h2
            rw [h3] at h2; cases h2
          · obtain ⟨h5, h6, -⟩ := (WF.reach hr).loc u c h3
            exact ⟨c, (s.ctxs c).id, hmono _ (((LInv.reach hr).regd c _ _).2 ⟨h5, rfl, h6⟩), hmono _ h4⟩
        have key : ∀ {i' k' dn}, PEv.waited u i k p true true ∈ (waitEv (s.view t) s.data.ad i' k' dn).plog →
            ∃ c id, Ev.registered c id u ∈ s'.log ∧ Ev.exitSet c ∈ s'.log := by
          intro i' k' dn h
          rw [waitEv_log] at h
          rcases List.mem_append.1 h with h | h
          · cases dn with
            | nil => simp at h
            | cons p' dn =>
              simp only [List.mem_singleton, PEv.waited.injEq] at h
              exact new h.1 h.2.2.2.2.1.symm h.2.2.2.2.2.symm
          · exact old h
        generalize s'.data.ad = ad' at hA h
        cases pool_pc hA with
        | usr g ch u wa hU => exact old h
        | ck x d' id c hP => cases hP <;> exact old ((List.mem_cons.1 h).resolve_left (by simp))
        | ps f d' a hf hb hP =>
          clear hA
          cases hP
          case caIn j K =>
            refine old ((List.mem_append.1 h).resolve_left fun h => ?_)
            have : ∀ jl : List (Job α), PEv.waited u i k p true true ∉ dropEvs (s.view t).tid j jl := by
              intro jl
              induction jl with
              | nil => simp [dropEvs]
              | cons a jl ih => simp only [dropEvs, List.mem_cons, not_or]; refine ⟨?_, ih⟩; cases a.call <;> simp
            exact this _ h
          case wtEnd i' k' dn => exact key ((List.mem_cons.1 h).resolve_left (by simp))
          case wtGo i' k' dn p' l => exact key h
          all_goals first
            | exact old h
            | exact old ((List.mem_cons.1 h).resolve_left (by simp))
            | (subst_vars; exact old h)
            | (subst_vars; exact old ((List.mem_cons.1 h).resolve_left (by simp)))

/-- wait(id) under the lock: the event of the call, and the frame that waits for it. -/
theorem C47_call (hr : PR U u0 f0 s) {t i id : Nat} {rest : List (Fr (PTask α) (PFrame α φ))} {ch : Ch (PCh χ)}
    (htop : s.stk t = .client (.app (.wtBody i id)) :: rest) (hexc : (s.thr t).exc = none)
    (hs : Core.step (client (poolApp U)) s (.th t ch) = some s') (hlive : s'.term = false) :
    ∃ o g ps, s'.data.ad.plog = .waits t i id o :: s.data.ad.plog ∧ s'.stk t = g :: .client (.app (.wtGo i s.data.ad.plog.length [] ps)) :: rest := by
  obtain ⟨a, ch', hA, hd, hact⟩ := pool_at hr htop hexc hs
  generalize s'.data.ad = ad' at hA
  cases pool_pc hA with
  | ps f d' a' hf hb hP =>
    cases hP
    case bad => rw [hact.2.1] at hlive; cases hlive
    case wtNo hn => exact ⟨none, _, _, rfl, hact.1⟩
    case wtBody j hj => exact ⟨some _, _, _, rfl, hact.1⟩

/-- The same for wait_all. -/
theorem C47_call_all (hr : PR U u0 f0 s) {t i : Nat} {rest : List (Fr (PTask α) (PFrame α φ))} {ch : Ch (PCh χ)}
    (htop : s.stk t = .client (.app (.waBody i)) :: rest) (hexc : (s.thr t).exc = none)
    (hs : Core.step (client (poolApp U)) s (.th t ch) = some s') (hlive : s'.term = false) :
    ∃ m g ps, s'.data.ad.plog = .waitsAll t i m :: s.data.ad.plog ∧ s'.stk t = g :: .client (.app (.wtGo i s.data.ad.plog.length [] ps)) :: rest := by
  obtain ⟨a, ch', hA, hd, hact⟩ := pool_at hr htop hexc hs
  generalize s'.data.ad = ad' at hA
  cases pool_pc hA with
  | ps f d' a' hf hb hP =>
    cases hP
    case bad => rw [hact.2.1] at hlive; cases hlive
    case waBody => exact ⟨_, _, _, rfl, hact.1⟩

/-- The frame of call `k` either goes on waiting for call `k`, or returns with the event of call `k`. -/
theorem C47_return (hr : PR U u0 f0 s) {t i k : Nat} {dn l : List Nat} {rest : List (Fr (PTask α) (PFrame α φ))} {ch : Ch (PCh χ)}
    (htop : s.stk t = .client (.app (.wtGo i k dn l)) :: rest) (hexc : (s.thr t).exc = none)
    (hs : Core.step (client (poolApp U)) s (.th t ch) = some s') (hlive : s'.term = false) :
    (∃ g dn' l', s'.stk t = g :: .client (.app (.wtGo i k dn' l')) :: rest) ∨ s'.stk t = rest ∧ ∃ ps, .waitRet t i k ps ∈ s'.data.ad.plog := by
  obtain ⟨a, ch', hA, hd, hact⟩ := pool_at hr htop hexc hs
  generalize s'.data.ad = ad' at hA
  cases pool_pc hA with
  | ps f d' a' hf hb hP =>
    cases hP
    case bad => rw [hact.2.1] at hlive; cases hlive
    case wtEnd => exact .inr ⟨hact.1, _, List.mem_cons_self⟩
    case wtGo p l => exact .inl ⟨_, _, _, hact.1⟩

end

/-! ## Examples -/

/-- Main registers itself, makes a pool with one worker, schedules a job, and waits for all jobs. -/
def demoWait : List (PAct Nat Nat) :=
  [.core .registerThis 2, .pool (.new 0 [(0, 1)]) 3, .pool (.schedule 0 ⟨0, 5⟩ true 20) 4, .pool (.waitAll 0) 5]

set_option synthInstance.maxSize 1024 in
set_option synthInstance.maxHeartbeats 400000 in
/-- The hypotheses of `C47_partial` are met: wait_all returns after the worker has executed the job. -/
example : ∃ (s : DPSt) (l1 l : List (PEv Nat)), PR (tableP demoWait) () 1 s ∧ s.data.ad.plog = l1 ++ .waitsAll 0 0 [(1, 1)] :: l ∧ .waitRet 0 0 6 [1] ∈ l1 ∧
    l.length = 6 ∧ .sched 0 0 1 demoA ⟨0, 5⟩ ∈ l ∧ (∀ v, .forgot v 0 1 ∉ l) ∧ (∀ p, .waited 0 0 6 p true false ∉ s.data.ad.plog) ∧
    ∀ p, .waited 0 0 6 p true true ∉ s.data.ad.plog := by
  obtain ⟨s, h1, h3⟩ := pwit (l := demoWait) (ls := pgo 0 45 ++ pgo 1 8 ++ ptop 1 0 ++ pgo 1 60 ++ pgo 0 10) (fun s => s.data.ad.plog)
    (b := [.waitRet 0 0 6 [1], .waited 0 0 6 1 false true, .done 1 0 1 demoA, .took 1 0 0 1 demoA ⟨1, ⟨0, 5⟩⟩] ++ .waitsAll 0 0 [(1, 1)] :: demoHist.drop 5)
    (by decide +kernel)
  exact ⟨s, _, _, h1, h3, by simp, by decide, by simp [demoHist], by simp [demoHist], by rw [h3]; simp [demoHist], by rw [h3]; simp [demoHist]⟩

set_option synthInstance.maxSize 1024 in
set_option synthInstance.maxHeartbeats 400000 in
/-- The hypotheses of `C47_call_all` and `C47_return` are met. -/
example : (∃ (s s' : DPSt) (rest : _), PR (tableP demoWait) () 1 s ∧ s.stk 0 = .client (.app (.waBody 0)) :: rest ∧ (s.thr 0).exc = none ∧
      step (client (poolApp (tableP demoWait))) s (.th 0 .go) = some s' ∧ s'.term = false) ∧
    ∃ (s s' : DPSt) (rest : _), PR (tableP demoWait) () 1 s ∧ s.stk 0 = .client (.app (.wtGo 0 6 [1] [])) :: rest ∧ (s.thr 0).exc = none ∧
      step (client (poolApp (tableP demoWait))) s (.th 0 .go) = some s' ∧ s'.term = false := by
  constructor
  · obtain ⟨s, s', h1, h2, h3⟩ := pwit2 (l := demoWait) (ls := pgo 0 33) (ls' := [.th 0 .go]) (fun s s' =>
      (s.stk 0, (s.thr 0).exc, s'.term)) (b := ([.client (.app (.waBody 0)), .client (.app (.usr 5))], none, false)) (by decide +kernel)
    simp only [Prod.mk.injEq] at h3
    obtain ⟨a1, a2, a3⟩ := h3
    refine ⟨s, s', _, h1, a1, a2, ?_, a3⟩
    simp only [run] at h2
    split at h2
    · cases h2
    · rename_i h; rw [h, ← h2]
  · obtain ⟨s, s', h1, h2, h3⟩ := pwit2 (l := demoWait) (ls := pgo 0 45 ++ pgo 1 8 ++ ptop 1 0 ++ pgo 1 60 ++ pgo 0 9) (ls' := [.th 0 .go]) (fun s s' =>
      (s.stk 0, (s.thr 0).exc, s'.term)) (b := ([.client (.app (.wtGo 0 6 [1] [])), .client (.app (.usr 5))], none, false)) (by decide +kernel)
    simp only [Prod.mk.injEq] at h3
    obtain ⟨a1, a2, a3⟩ := h3
    refine ⟨s, s', _, h1, a1, a2, ?_, a3⟩
    simp only [run] at h2
    split at h2
    · cases h2
    · rename_i h; rw [h, ← h2]

set_option synthInstance.maxSize 1024 in
set_option synthInstance.maxHeartbeats 400000 in
/-- **The claim C47 does not hold after stop_all**: the worker executes the job, main calls stop_all, then wait(1), which returns although the job is still
    executing (and main was not told to exit). -/
theorem C47_forgotten : ∃ (s : DPSt) (l : List (PEv Nat)), PR (tableP [.core .registerThis 2, .pool (.new 0 [(0, 1)]) 3, .pool (.schedule 0 ⟨0, 5⟩ true 20) 4,
      .pool (.stopAll 0) 5, .pool (.wait 0 1) 6]) () 1 s ∧
    s.data.ad.plog = .waitRet 0 0 8 [] :: .waits 0 0 1 none :: l ∧ l.length = 8 ∧ .sched 0 0 1 demoA ⟨0, 5⟩ ∈ l ∧ 1 ∉ overIds 0 l ∧
    .client (.app (.usr 20)) ∈ s.stk 1 ∧ (s.data.sd.st demoA.u).status = .notSet ∧ s.notified 0 = false := by
  obtain ⟨s, h1, h3⟩ := pwit (l := [.core .registerThis 2, .pool (.new 0 [(0, 1)]) 3, .pool (.schedule 0 ⟨0, 5⟩ true 20) 4,
      .pool (.stopAll 0) 5, .pool (.wait 0 1) 6]) (ls := pgo 0 30 ++ pgo 1 8 ++ ptop 1 0 ++ pgo 1 8 ++ pgo 0 13) (fun s =>
    (s.data.ad.plog, decide (.client (.app (.usr 20)) ∈ s.stk 1), (s.data.sd.st demoA.u).status, s.notified 0))
    (b := (.waitRet 0 0 8 [] :: .waits 0 0 1 none :: .forgot 0 0 1 :: .took 1 0 0 1 demoA ⟨1, ⟨0, 5⟩⟩ :: demoHist.drop 5, true, .notSet, false)) (by decide +kernel)
  simp only [Prod.mk.injEq, decide_eq_true_eq] at h3
  exact ⟨s, _, h1, h3.1, by decide, by simp [demoHist], by decide, h3.2⟩

set_option synthInstance.maxSize 1024 in
set_option synthInstance.maxHeartbeats 400000 in
/-- **The claim C47 does not hold for a thread that is not registered**: its wait returns although the job is pending, and nobody told it to exit. -/
theorem C47_unregistered : ∃ (s : DPSt) (l : List (PEv Nat)), PR (tableP [.pool (.new 0 [(0, 1)]) 2, .pool (.schedule 0 ⟨0, 5⟩ true 20) 3, .pool (.wait 0 1) 4]) () 1 s ∧
    s.data.ad.plog = .waitRet 0 0 6 [1] :: .waited 0 0 6 1 true false :: .waits 0 0 1 (some 1) :: l ∧ l.length = 6 ∧ .sched 0 0 1 demoA ⟨0, 5⟩ ∈ l ∧
    Pending 0 1 s.data.ad.plog ∧ ∀ c, .exitSet c ∉ s.log := by
  obtain ⟨s, h1, h3⟩ := pwit (l := [.pool (.new 0 [(0, 1)]) 2, .pool (.schedule 0 ⟨0, 5⟩ true 20) 3, .pool (.wait 0 1) 4]) (ls := pgo 0 37) (fun s =>
    (s.data.ad.plog, s.log.all fun e => match e with | .exitSet _ => false | _ => true))
    (b := (.waitRet 0 0 6 [1] :: .waited 0 0 6 1 true false :: .waits 0 0 1 (some 1) :: [.returned 0 0 1 0, .sched 0 0 1 demoA ⟨0, 5⟩, .packed 1 1,
      .packed 0 0, .made 0 0, .worker 0 0 0 1 1], true)) (by decide +kernel)
  simp only [Prod.mk.injEq] at h3
  refine ⟨s, _, h1, h3.1, by decide, by simp, ?_, fun c hc => ?_⟩
  · rw [h3.1]; simp only [Pending]; decide
  · simpa using List.all_eq_true.1 h3.2 _ hc

end Itc
