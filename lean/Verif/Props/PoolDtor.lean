import Verif.Props.PoolCalls
import Verif.Pool.DtorCall

/-!
# Properties of the pool: the destructor (C54)
-/
namespace Itc
open Core Sync Pool

section
variable {α φ δ χ : Type} {U : PApp α φ δ χ} {u0 : δ} {f0 : φ} {s s' s0 : PSt α φ δ}

/-- Thread `t` discards all jobs of pool `i` that no worker has taken, between the states `s0` and `s`. -/
def Discards (U : PApp α φ δ χ) (t : Nat) (s0 s : PSt α φ δ) (i : Nat) : Prop :=
  ∃ l es, s0.data.ad.plog <:+ l ∧ es ++ l <:+ s.data.ad.plog ∧ (∀ id, ¬ Pending i id (es ++ l)) ∧
    ∀ id, Pending i id l → ∃ c, (∃ u g, .sched u i id c g ∈ l) ∧ .discarded t i id c ∈ es ∧ Holds (s.data.sd.st c.u) (.exn .brokenPromise) ∧
      ∀ s', Later (client (poolApp U)) s s' → ∀ u, .bodyStart u c.u ∉ s'.data.sd.slog

/-- Pool `i` is destroyed by thread `t` in the course of a call that began in state `s0` and has returned in `s`. `sc`: the state in which it begins to end the
    workers; `s1`: the state in which the destruction of its members begins; `l`: the log when it destroys its jobs; `es`: what is logged at that moment. -/
structure Destroyed (U : PApp α φ δ χ) (t : Nat) (s0 s : PSt α φ δ) (i : Nat) (sc s1 : PSt α φ δ) (l es : List (PEv α)) : Prop where
  /-- Before it ends the workers, it discards the jobs. -/
  first : Later (client (poolApp U)) s0 sc
  clear : Discards U t s0 sc i
  /-- This is between the call and the return. -/
  after : Later (client (poolApp U)) sc s1
  before : Later (client (poolApp U)) s1 s
  log : s1.data.ad.plog <:+ l
  log' : es ++ l <:+ s.data.ad.plog
  /-- Every thread that the pool has ever started had ended before, and was not joined before the jobs were discarded. -/
  workers : ∀ u lv n id, .worker u i lv n id ∈ s.data.ad.plog →
    ∃ s2, Later (client (poolApp U)) sc s2 ∧ Later (client (poolApp U)) s2 s1 ∧ (∃ u, .worker u i lv n id ∈ s2.data.ad.plog) ∧ (s2.thr n).status = .zombie
  /-- No job is left. -/
  none : ∀ id, ¬ Pending i id (es ++ l)
  /-- The jobs that no worker has taken are discarded; their futures are ready with broken_promise, and their functions are never called. -/
  broken : ∀ id, Pending i id l → ∃ c, (∃ u g, .sched u i id c g ∈ l) ∧ .discarded t i id c ∈ es ∧ Holds (s.data.sd.st c.u) (.exn .brokenPromise) ∧
    ∀ s', Later (client (poolApp U)) s s' → ∀ u, .bodyStart u c.u ∉ s'.data.sd.slog
  /-- Every job is over, and remains so: its future is ready, and its function is not being executed; unless some thread is discarding this very job (in stop,
      stop_all, clear_all). -/
  over : ∀ u id c g, .sched u i id c g ∈ l → (∀ s', Later (client (poolApp U)) s s' → Finished s' c) ∨
    ∃ v f, .client (.app f) ∈ s.stk v ∧ CutF i c f ∧ (.stopped v i id c ∈ s.data.ad.plog ∨ .discarded v i id c ∈ s.data.ad.plog)

theorem discards (hr0 : PR U u0 f0 s0) (hl : Later (client (poolApp U)) s0 s) {t i : Nat} (h : CaF t s0 s i none []) : Discards U t s0 s i := by
  have hr := later_reach hr0 hl
  obtain ⟨es, l, h6, h7, h8⟩ := h
  refine ⟨l, es, h6.1, h6.2, h7, fun id hp => ?_⟩
  obtain ⟨c, h9, h10⟩ := h8 id hp
  have hm : .discarded t i id c ∈ s.data.ad.plog := h6.2.subset (List.mem_append_left _ h9)
  have hc : Cut s.data.ad i id c := ⟨t, .inr hm⟩
  have h10 : rdy s.data.sd c.p := by simpa using h10
  refine ⟨c, ?_, h9, cut_broken hr hc (up_ready hr (hc.schd hr) h10.2), fun s1 hl u => cut_start (later_reach hr hl) ⟨t, .inr (later_mem hl hm)⟩ (.inl rfl)⟩
  obtain ⟨e, he, h11⟩ := List.mem_filterMap.1 hp.1
  cases e <;> simp only [PEv.schedId, reduceCtorEq] at h11
  rename_i u i' id' c' g
  split at h11 <;> cases h11
  rename_i hi
  subst hi
  obtain ⟨u2, g2, h12⟩ := hc.schd hr
  obtain rfl := sched_one hr (h6.2.subset (List.mem_append_right _ he)) h12
  exact ⟨u, g, he⟩

theorem dtor_call (hr : PR U u0 f0 s0) {t n : Nat} {f : PFrame α φ} (K : DK) {rest : List (Fr (PTask α) (PFrame α φ))}
    (hst : s0.stk t = .client (.app f) :: rest) (h0 : DPhI U t rest s0 K f s0) (hf : Frag (client (poolApp U)) t rest s0 n s) {lb : Lbl (PCh χ)}
    (hs : step (client (poolApp U)) s lb = some s') (hend : s'.stk t = rest) (hexc : (s'.thr t).exc = none) :
    Empty U s0 s' K.obj ∨ ∃ i sc s1 l es, DerefIn U s0 s' K.obj i ∧ Destroyed U t s0 s' i sc s1 l es := by
  have hr' : PR U u0 f0 s' := (hf.reach hr).step hs
  rcases (dPh (u0 := u0) (f0 := f0) hr t K rest).fin hr hst ⟨Later.refl, h0⟩ hf hs hend hexc with h |
    ⟨i, h1, sc, ⟨hc1, hc2, hc3⟩, h2, s1, h3, h4, hm, h5, es, l, h6, h7, h8⟩
  · exact .inl h
  have hrc := later_reach hr hc1
  refine .inr ⟨i, sc, s1, l, es, h1, hc1, discards hr hc1 hc3, h3, h4, h6.1, h6.2, fun u lv n id hw => ?_, h7, fun id hp => ?_, fun u id c g hc => ?_⟩
  · have hr1 := later_reach hrc h3
    have : .worker u i lv n id ∈ s1.data.ad.plog :=
      (h4.ind (P := fun y => PR U u0 f0 y ∧ Made y.data.ad i ∧ (.worker u i lv n id ∈ y.data.ad.plog → .worker u i lv n id ∈ s1.data.ad.plog))
        (fun hs h => ⟨h.1.step hs, h.2.1.imp fun _ h => (plog_suffix hs).subset h, fun hw => h.2.2 (worker_old h.1 hs h.2.1 hw)⟩) ⟨hr1, hm, fun h => h⟩).2.2 hw
    obtain ⟨s2, h6, h7, h8, h9, -⟩ := (h5 u ⟨lv, n, id⟩ this).resolve_left fun h => h
    exact ⟨s2, h6, h7, h8, h9⟩
  · obtain ⟨c, h9, h10⟩ := h8 id hp
    have hm : .discarded t i id c ∈ s'.data.ad.plog := h6.2.subset (List.mem_append_left _ h9)
    have hc : Cut s'.data.ad i id c := ⟨t, .inr hm⟩
    have h10 : rdy s'.data.sd c.p := by simpa using h10
    refine ⟨c, ?_, h9, cut_broken hr' hc (up_ready hr' (hc.schd hr') h10.2), fun s1 hl u => cut_start (later_reach hr' hl) ⟨t, .inr (later_mem hl hm)⟩ (.inl rfl)⟩
    obtain ⟨e, he, h11⟩ := List.mem_filterMap.1 hp.1
    cases e <;> simp only [PEv.schedId, reduceCtorEq] at h11
    rename_i u i' id' c' g
    split at h11 <;> cases h11
    rename_i hi
    subst hi
    obtain ⟨u2, g2, h12⟩ := hc.schd hr'
    obtain rfl := sched_one hr' (h6.2.subset (List.mem_append_right _ he)) h12
    exact ⟨u, g, he⟩
  · have hm := h6.2.subset (List.mem_append_right es hc)
    have fin : rdy s'.data.sd c.p → ∀ s'', Later (client (poolApp U)) s' s'' → Finished s'' c := fun hrd s'' hl =>
      fin_p (later_reach hr' hl) ⟨u, g, later_mem hl hm⟩ (hl.ind (P := fun y => rdy y.data.sd c.p) (fun hs h => rdy_mono (step_ext hs) h) hrd)
    have hin : id ∈ schedIds i (es ++ l) := List.mem_filterMap.2 ⟨_, List.mem_append_right es hc, by simp [PEv.schedId]⟩
    have h9 : id ∈ takenIds i (es ++ l) ∨ id ∈ cutIds i (es ++ l) := by
      by_contra h
      exact h7 id ⟨hin, fun h1 => h (.inl h1), fun h1 => h (.inr h1)⟩
    rcases h9 with h9 | h9
    · obtain ⟨e, he, h10⟩ := List.mem_filterMap.1 h9
      have he := h6.2.subset he
      cases e <;> simp only [PEv.takenId, reduceCtorEq] at h10
      rename_i w i' L id' c' hd
      split at h10 <;> cases h10
      rename_i hi
      subst hi
      obtain ⟨u2, g2, h11⟩ := took_schd hr' he
      obtain rfl := sched_one hr' hm h11
      exact .inl (fin (took_all hrc hr' h2 he))
    · obtain ⟨e, he, h10⟩ := List.mem_filterMap.1 h9
      have he := h6.2.subset he
      have key : ∀ v c', .stopped v i id c' ∈ s'.data.ad.plog ∨ .discarded v i id c' ∈ s'.data.ad.plog → (∀ s'', Later (client (poolApp U)) s' s'' → Finished s'' c) ∨
          ∃ v f, .client (.app f) ∈ s'.stk v ∧ CutF i c f ∧ (.stopped v i id c ∈ s'.data.ad.plog ∨ .discarded v i id c ∈ s'.data.ad.plog) := by
        intro v c' hv
        obtain ⟨u2, g2, h11⟩ := Cut.schd hr' ⟨v, hv⟩
        obtain rfl := sched_one hr' hm h11
        rcases cut_over hr' v i id c hv with h12 | ⟨f, h12, h13⟩
        · exact .inl (fin h12)
        · exact .inr ⟨v, f, h12, h13, hv⟩
      cases e <;> simp only [PEv.cutId, reduceCtorEq, Option.ite_none_right_eq_some, Option.some.injEq] at h10 <;> obtain ⟨rfl, rfl⟩ := h10
      · exact key _ _ (.inl he)
      · exact key _ _ (.inr he)

/-- **C54**: when `~thread_pool` has returned, the object had no pool (it was moved from), or the pool is destroyed as `Destroyed` says. -/
theorem C54_dtor (hr : PR U u0 f0 s0) {t n h : Nat} {rest : List (Fr (PTask α) (PFrame α φ))}
    (hst : s0.stk t = .client (.app (.delIn h)) :: rest) (hf : Frag (client (poolApp U)) t rest s0 n s) {lb : Lbl (PCh χ)}
    (hs : step (client (poolApp U)) s lb = some s') (hend : s'.stk t = rest) (hexc : (s'.thr t).exc = none) :
    Empty U s0 s' h ∨ ∃ i sc s1 l es, DerefIn U s0 s' h i ∧ Destroyed U t s0 s' i sc s1 l es :=
  dtor_call hr (.del h) hst rfl hf hs hend hexc

/-- The same for the pool that a move assignment replaces. -/
theorem C54_assign (hr : PR U u0 f0 s0) {t n h h' : Nat} (hne : h ≠ h') {rest : List (Fr (PTask α) (PFrame α φ))}
    (hst : s0.stk t = .client (.app (.maIn h h')) :: rest) (hf : Frag (client (poolApp U)) t rest s0 n s) {lb : Lbl (PCh χ)}
    (hs : step (client (poolApp U)) s lb = some s') (hend : s'.stk t = rest) (hexc : (s'.thr t).exc = none) :
    Empty U s0 s' h ∨ ∃ i sc s1 l es, DerefIn U s0 s' h i ∧ Destroyed U t s0 s' i sc s1 l es :=
  dtor_call hr (.asg h h') hst ⟨rfl, hne⟩ hf hs hend hexc

end
/-- Main makes a pool with one worker, schedules two jobs, and destroys the pool. -/
def demoDtor : List (PAct Nat Nat) :=
  [.core .registerThis 2, .pool (.new 0 [(0, 1)]) 3, .pool (.schedule 0 ⟨0, 5⟩ true 20) 4, .pool (.schedule 0 ⟨0, 3⟩ true 20) 5, .pool (.del 0) 6]

/-- The hypotheses of `C54_dtor` are met: the worker takes the first job before the destructor erases the second one. When the destructor has returned, the worker
    has ended, the first job has been executed, the second one never. -/
example : ∃ s0 n s s', PR (tableP demoDtor) () 1 s0 ∧ s0.stk 0 = .client (.app (.delIn 0)) :: [.client (.app (.usr 6))] ∧
    Frag (client (poolApp (tableP demoDtor))) 0 [.client (.app (.usr 6))] s0 n s ∧ step (client (poolApp (tableP demoDtor))) s (.th 0 .go) = some s' ∧
    (decide (s'.stk 0 = [.client (.app (.usr 6))]), (s'.thr 0).exc, (s'.thr 1).status, decide (.done 1 0 1 demoA ∈ s'.data.ad.plog ∧ .done 1 0 1 demoA ∉ s0.data.ad.plog),
      decide (.discarded 0 0 2 demoB ∈ s'.data.ad.plog ∧ .worker 0 0 0 1 2 ∈ s'.data.ad.plog), decide (.bodyRet 1 0 .unit ∈ s'.data.sd.slog)) =
      (true, none, .free, true, true, true) :=
  pfragWit (l := demoDtor) (ls1 := pgo 0 47) (ls2 := pgo 1 8 ++ ptop 1 0 ++ pgo 1 8 ++ pgo 0 44 ++ pgo 1 54 ++ pgo 0 7)
    (obs := fun s0 s' => (decide (s'.stk 0 = [.client (.app (.usr 6))]), (s'.thr 0).exc, (s'.thr 1).status, decide (.done 1 0 1 demoA ∈ s'.data.ad.plog ∧ .done 1 0 1 demoA ∉ s0.data.ad.plog),
      decide (.discarded 0 0 2 demoB ∈ s'.data.ad.plog ∧ .worker 0 0 0 1 2 ∈ s'.data.ad.plog), decide (.bodyRet 1 0 .unit ∈ s'.data.sd.slog))) (by decide +kernel)

/-- Main makes two pools, schedules a job on the first one, and assigns the second one to the first. -/
def demoAssign : List (PAct Nat Nat) :=
  [.core .registerThis 2, .pool (.new 0 [(0, 1)]) 3, .pool (.new 1 []) 4, .pool (.schedule 0 ⟨0, 5⟩ true 20) 5, .pool (.assign 0 1) 6]

/-- The hypotheses of `C54_assign` are met; the job is discarded. -/
example : ∃ s0 n s s', PR (tableP demoAssign) () 1 s0 ∧ s0.stk 0 = .client (.app (.maIn 0 1)) :: [.client (.app (.usr 6))] ∧
    Frag (client (poolApp (tableP demoAssign))) 0 [.client (.app (.usr 6))] s0 n s ∧ step (client (poolApp (tableP demoAssign))) s (.th 0 .go) = some s' ∧
    (decide (s'.stk 0 = [.client (.app (.usr 6))]), (s'.thr 0).exc, (s'.thr 1).status, decide (.discarded 0 0 1 demoA ∈ s'.data.ad.plog), s'.data.ad.obj 0) =
      (true, none, .free, true, some ⟨some 1, some 1⟩) :=
  pfragWit (l := demoAssign) (ls1 := pgo 0 34) (ls2 := pgo 0 44 ++ pgo 1 13 ++ pgo 0 7)
    (obs := fun _ s' => (decide (s'.stk 0 = [.client (.app (.usr 6))]), (s'.thr 0).exc, (s'.thr 1).status, decide (.discarded 0 0 1 demoA ∈ s'.data.ad.plog), s'.data.ad.obj 0))
    (by decide +kernel)

end Itc
