import Verif.Props.LiveBreak

/-!
# C83: the task of a future returns, and its future is then ready
-/

namespace Itc
open Core Sync

section
variable {α φ δ χ : Type} {A : App α φ δ χ} {ad : δ} {i0 : φ} {r : Run (client A)} {v j m p : Nat} {a : α} {x : Res} {L : List (Fr α φ)}

/-- A call of `g` above `L` ends, normally or with an exception. -/
def Run.Finishes (r : Run (client A)) (v : Nat) (g : SFrame α φ) (L : List (Fr α φ)) : Prop :=
  ∀ i, (r.st i).stk v = .client g :: L → ((r.st i).thr v).exc = none → ∃ m, r.Ends v L i m

/-- Thread `v` is back in `g`, with or without an exception. -/
structure AtX (r : Run (client A)) (v : Nat) (L : List (Fr α φ)) (j m : Nat) (g : SFrame α φ) : Prop where
  le : j ≤ m
  stk : (r.st m).stk v = .client g :: L
  suf : ∀ q, j ≤ q → q < m → ∃ pre x, (r.st q).stk v = pre ++ x :: L

theorem AtX.at {g : SFrame α φ} (h : AtX r v L j m g) (he : ((r.st m).thr v).exc = none) : AtN r v L j m [.client g] := ⟨h.le, h.stk, he, h.suf⟩

theorem AtN.ended {g G : SFrame α φ} (ha : AtN r v L j m [.client g, .client G]) {m' : Nat} (h : r.Ends v (.client G :: L) m m') : AtX r v L j m' G :=
  ⟨by have := ha.le; have := h.1; omega, h.2.1, fun q h1 h2 => by
    rcases Nat.lt_or_ge q m with hq | hq
    · exact ha.suf q h1 hq
    · obtain ⟨pre, x, hp⟩ := h.2.2 q hq h2
      exact ⟨pre ++ [x], _, by rw [hp, List.append_assoc]; rfl⟩⟩

variable (hr : SR A ad i0 (r.st 0))
include hr

/-- The handler of `g` is executed. -/
theorem AtX.caught {g g' : SFrame α φ} {e : Exn} (hf : r.Strong v) (ha : AtX r v L j m g) (he : ((r.st m).thr v).exc = some e)
    (hg : sThrow A.onThrow g e = some g') : ∃ m', m < m' ∧ AtN r v L j m' [.client g'] := by
  obtain ⟨m', h1, h2, ⟨ch, h3⟩, h4⟩ := r.nextF hr hf (i := m) (by rw [ha.stk]; simp) fun n hn hsame => ⟨n, Nat.le_refl _, .go, by
    have hs := (hsame n hn).stk.trans ha.stk
    have he := (hsame n hn).exc.trans he
    have hrun := running_of_stk (FreeOK.reach (r.reach hr n)) (t := v) (by rw [hs]; simp)
    simp only [step, (r.good n).1, (r.good n).2, hrun, he, Bool.or_self, Bool.false_eq_true, if_false, ne_eq, not_true_eq_false, Option.isSome_some]⟩
  have hok := r.ok m'
  rw [h3] at hok
  have hs := h2.stk.trans ha.stk
  have he := h2.exc.trans he
  cases step_cl hok with
  | «catch» e' g1 g2 rest hx hold hg' hst' hx' =>
    rw [hs] at hold
    rw [he] at hx
    cases hold
    cases hx
    have : sThrow A.onThrow g e = some g2 := hg'
    rw [hg] at this
    cases this
    refine ⟨m' + 1, by omega, by have := ha.le; omega, hst', hx', fun q h5 h6 => ?_⟩
    rcases Nat.lt_or_ge q m with hq | hq
    · exact ha.suf q h5 hq
    · exact ⟨[], _, (h4 q hq (by omega)).stk.trans ha.stk⟩
  | pop e' g1 rest hx hold hg' =>
    rw [hs] at hold
    rw [he] at hx
    cases hold
    cases hx
    have : sThrow A.onThrow g e = none := hg'
    rw [hg] at this
    cases this
  | halt e' hx hst' hterm => have := (r.good (m' + 1)).2; simp_all
  | fin hold => rw [hs] at hold; cases hold
  | cl _ _ _ _ hx => simp_all
  | core _ _ hx => simp_all
  | task _ _ _ _ _ hold => rw [hs] at hold; cases hold
  | cpop _ _ _ _ hold => rw [hs] at hold; cases hold

/-- set_value or set_exception, called from `K`. -/
theorem AtN.setIn {K : SFrame α φ} (h : Sets r v p (.client K :: L)) (hn : ∀ g, .client g ∈ .client K :: L → gw p g ≠ 1)
    (ha : AtN r v L j m [.client (.svIn p x), .client K]) :
    ∃ m', m < m' ∧ AtX r v L j m' K ∧ (((r.st m').thr v).exc = none ∨ ((r.st m').thr v).exc = some .promiseSatisfied) ∧ (r.st m').data.sd.ready p = true := by
  have h0 : AtN r v (.client K :: L) m m [.client (.svIn p x)] := ⟨Nat.le_refl _, ha.stk, ha.exc, fun q h1 h2 => by omega⟩
  obtain ⟨m1, h1, h2, h3⟩ := AtN.set hr h hn h0
  refine ⟨m1, h1, ha.ended h2, h3, ?_⟩
  obtain ⟨n1, h4, h5⟩ := AtN.svIn hr h.fair h.lock hn h0
  obtain ⟨n2, h6, h7, h8⟩ := AtN.svChk hr h.fair h5
  refine Run.ready_le hr h7 ?_
  by_contra hc
  push Not at hc
  rcases h8 with ⟨cs, h8⟩ | ⟨h8, -⟩
  · obtain ⟨pre, y, hp⟩ := h8.suf m1 (by omega) hc
    rw [h2.2.1] at hp
    have := congrArg List.length hp
    simp at this
    omega
  · obtain ⟨pre, y, hp⟩ := h8.2.2 m1 (by omega) hc
    rw [h2.2.1] at hp
    have := congrArg List.length hp
    simp at this
    omega

/-- Assumptions on thread `v`, which executes the task with the function `a` and the future `p` above `L`: those of set_value, and the function returns or throws
    an exception. -/
structure Tasked (r : Run (client A)) (v p : Nat) (a : α) (L : List (Fr α φ)) : Prop where
  fin : r.Finishes v (.app (A.run a)) (.client (.ftSet p) :: L)
  val : Sets r v p (.client (.ftDone p) :: L)
  exn : Sets r v p (.client (.ftEnd p) :: L)

/-- The handler of the task. -/
theorem AtN.ftExc {e : Exn} (h : Tasked r v p a L) (hn : ∀ g, .client g ∈ L → gw p g ≠ 1) (ha : AtN r v L j m [.client (.ftExc p e)]) :
    ∃ m', m < m' ∧ AtN r v L j m' [] ∧ (r.st m').data.sd.ready p = true := by
  obtain ⟨m1, sd, y, h1, h2, h3, h4, h5⟩ := ha.cl hr h.exn.fair (by simp) fun m => ⟨_, rfl⟩
  cases h3
  obtain ⟨m2, h6, h7, h8, h9⟩ := AtN.setIn hr h.exn (fun g hm => by
    rcases List.mem_cons.1 hm with hm | hm
    · cases hm; simp [gw]
    · exact hn g hm) (h2.succ (G' := [_, _]) h5.1 h5.2.1)
  rcases h8 with h8 | h8
  · obtain ⟨m3, sd, y, g1, g2, g3, g4, g5⟩ := (h7.at h8).cl hr h.exn.fair (by simp) fun m => ⟨_, rfl⟩
    cases g3
    exact ⟨m3 + 1, by omega, g2.succ (G' := []) g5.1 g5.2.1, Run.ready_le hr h9 (by omega)⟩
  · obtain ⟨m4, g6, g7⟩ := AtX.caught hr h.exn.fair h7 h8 rfl
    obtain ⟨m3, sd, y, g1, g2, g3, g4, g5⟩ := g7.cl hr h.exn.fair (by simp) fun m => ⟨_, rfl⟩
    cases g3
    exact ⟨m3 + 1, by omega, g2.succ (G' := []) g5.1 g5.2.1, Run.ready_le hr h9 (by omega)⟩

/-- The task. -/
theorem AtN.ftRun (h : Tasked r v p a L) (hn : ∀ g, .client g ∈ L → gw p g ≠ 1) (ha : AtN r v L j m [.client (.ftRun p a)]) :
    ∃ m', m < m' ∧ AtN r v L j m' [] ∧ (r.st m').data.sd.ready p = true := by
  obtain ⟨m1, sd, y, h1, h2, h3, h4, h5⟩ := ha.cl hr h.exn.fair (by simp) fun m => ⟨_, rfl⟩
  cases h3
  have h6 : AtN r v L j (m1 + 1) [.client (.app (A.run a)), .client (.ftSet p)] := h2.succ (G' := [_, _]) h5.1 h5.2.1
  clear h4 h5
  obtain ⟨m2, h7⟩ := h.fin _ h6.stk h6.exc
  have hlt := h7.1
  have h8 := h6.ended h7
  cases he : ((r.st m2).thr v).exc with
  | none =>
    obtain ⟨m3, sd, y, h9, h2, h3, h4, h5⟩ := (h8.at he).cl hr h.exn.fair (by simp) fun m => ⟨_, rfl⟩
    cases h3
    obtain ⟨m4, g1, g2, g3, g4⟩ := AtN.setIn hr h.val (fun g hm => by
      rcases List.mem_cons.1 hm with hm | hm
      · cases hm; simp [gw]
      · exact hn g hm) (h2.succ (G' := [_, _]) h5.1 h5.2.1)
    rcases g3 with g3 | g3
    · obtain ⟨m5, sd, y, k1, k2, k3, k4, k5⟩ := (g2.at g3).cl hr h.exn.fair (by simp) fun m => ⟨_, rfl⟩
      cases k3
      exact ⟨m5 + 1, by omega, k2.succ (G' := []) k5.1 k5.2.1, Run.ready_le hr g4 (by omega)⟩
    · obtain ⟨m5, k1, k2⟩ := AtX.caught hr h.exn.fair g2 g3 rfl
      obtain ⟨m6, k3, k4⟩ := AtN.ftExc hr h hn k2
      exact ⟨m6, by omega, k4⟩
  | some e =>
    obtain ⟨m3, k1, k2⟩ := AtX.caught hr h.exn.fair h8 he rfl
    obtain ⟨m4, sd, y, h9, h2, h3, h4, h5⟩ := k2.cl hr h.exn.fair (by simp) fun m => ⟨_, rfl⟩
    cases h3
    obtain ⟨m6, k3, k4⟩ := AtN.ftExc hr h hn (h2.succ (G' := [_]) h5.1 h5.2.1)
    exact ⟨m6, by omega, k4⟩

/-- **C83.** Thread `v` executes a task made by async, then or package_future_task.  If its function returns or throws an exception, then the task returns, without
    an exception, and its future is ready. -/
theorem C83_task (h : Tasked r v p a L) (hst : (r.st j).stk v = .client (.ftRun p a) :: L) (hexc : ((r.st j).thr v).exc = none)
    (hg : (r.st j).data.sd.lk (.guard p) ≠ some v) :
    ∃ m, r.Ends v L j m ∧ ((r.st m).thr v).exc = none ∧ (r.st m).data.sd.ready p = true := by
  obtain ⟨m, h1, h2, h3⟩ := AtN.ftRun hr h (fun g h4 h5 => hg (guard_own (r.reach hr j) (by rw [hst]; exact List.mem_cons_of_mem _ h4) h5))
    ⟨Nat.le_refl _, hst, hexc, fun q h1 h2 => by omega⟩
  exact ⟨m, h2.ends h1, h2.exc, h3⟩

/-- **C83.** The same for the call of a task that the caller keeps (package_future_task). -/
theorem C83_call (h : Tasked r v p a (.client (.xtRet p) :: L)) (hst : (r.st j).stk v = .client (SApi.runTask p a).entry :: L)
    (hexc : ((r.st j).thr v).exc = none) (hg : (r.st j).data.sd.lk (.guard p) ≠ some v) :
    ∃ m, r.Ends v L j m ∧ ((r.st m).thr v).exc = none ∧ (r.st m).data.sd.ready p = true := by
  have hn : ∀ g, .client g ∈ L → gw p g ≠ 1 := fun g h4 h5 => hg (guard_own (r.reach hr j) (by rw [hst]; exact List.mem_cons_of_mem _ h4) h5)
  have h0 : AtN r v L j j [.client (.rtIn p a)] := ⟨Nat.le_refl _, hst, hexc, fun q h1 h2 => by omega⟩
  obtain ⟨m1, sd, y, h1, h2, h3, h4, h5⟩ := h0.cl hr h.exn.fair (by simp) fun m => by simp only [sstep]; split <;> exact ⟨_, rfl⟩
  cases h3 with
  | rtBad => have := (r.good (m1 + 1)).2; simp_all [ActTo]
  | rtIn _ _ hp ho =>
    have h6 : AtN r v L j (m1 + 1) [.client (.ftRun p a), .client (.xtRet p)] := h2.succ (G' := [_, _]) h5.1 h5.2.1
    obtain ⟨m2, h7, h8, h9⟩ := AtN.ftRun hr h (fun g hm => by
      rcases List.mem_cons.1 hm with hm | hm
      · cases hm; simp [gw]
      · exact hn g hm) (j := m1 + 1) ⟨Nat.le_refl _, h6.stk, h6.exc, fun q h1 h2 => by omega⟩
    obtain ⟨m3, sd, y, k1, k2, k3, k4, k5⟩ := (h8.below (i := j) (by omega) h6.suf).cl hr h.exn.fair (by simp) fun m => ⟨_, rfl⟩
    cases k3
    have h10 : AtN r v L j (m3 + 1) [] := k2.succ (G' := []) k5.1 k5.2.1
    exact ⟨_, h10.ends (by omega), h10.exc, Run.ready_le hr h9 (by omega)⟩

end

/-! ## Examples -/

/-- main makes a task, the function of which throws an exception, and calls it. -/
def taskProg : List (SAct Nat Nat) := [.core .registerThis 2, .sync (.package 0 false) 3, .sync (.runTask 0 4) 8, .throw .deadlock]

/-- main executes no continuation and destroys no task. -/
def taskOk (s : DSt) : Bool :=
  (match s.stk 0 with | .client (.ftRun _ _) :: .client (.laInl _ _) :: _ => false | .client (.ftDtor _ _) :: _ => false | _ => true) &&
  (match s.stk 0 with | _ :: .core (.destroyList _ _ _ _) :: _ => false | _ => true)

/-- main begins to execute the function. -/
def taskAt (s : DSt) : Bool := match s.stk 0 with | .client (.app _) :: .client (.ftSet _) :: _ => true | _ => false

/-- Hypotheses of `C83_call` and, with `j = 8`, of `C83_task`. -/
example : ∃ r : Run (client (tableApp taskProg)), SR (tableApp taskProg) () 1 (r.st 0) ∧ Tasked r 0 0 4 [.client (.xtRet 0), .client (.app 8)] ∧
    (r.st 7).stk 0 = [.client (SApi.runTask 0 4).entry, .client (.app 8)] ∧ ((r.st 7).thr 0).exc = none ∧ (r.st 7).data.sd.lk (.guard 0) ≠ some 0 ∧
    (r.st 8).stk 0 = [.client (.ftRun 0 4), .client (.xtRet 0), .client (.app 8)] ∧ ((r.st 8).thr 0).exc = none ∧ (r.st 8).data.sd.lk (.guard 0) ≠ some 0 ∧
    (r.st 8).data.sd.ready 0 = false ∧ ((r.st 10).thr 0).exc = some .deadlock := by
  obtain ⟨s', hs', ho⟩ := Option.map_eq_some_iff.1 (show (sexec taskProg (Core.go 0 25)).map (fun s => (s.ub, s.term)) = some (false, false) by decide +kernel)
  simp only [Prod.mk.injEq] at ho
  obtain ⟨r, hr0, hr, hl⟩ := Run.ofList hs' ho.1 ho.2
  have h3 : ∀ {β : Type} (g : DSt → β) (i : Nat) (b : β), (sexec taskProg ((Core.go 0 25).take i)).map g = some b → g (r.st i) = b := by
    intro β g i b h
    simp only [sexec, hr i, Option.map_some] at h
    exact Option.some.inj h
  have hlen : (Core.go 0 25).length = 25 := by decide
  have hE : ∀ i, 25 ≤ i → decide (((r.st i).thr 0).status = .running) = false ∧ (r.st i).gOwner = none ∧
      (r.st i).data.sd.lk (.guard 0) = none ∧ taskOk (r.st i) = true ∧ taskAt (r.st i) = false := fun i hi => by
    have := h3 (fun s => (decide ((s.thr 0).status = .running), s.gOwner, s.data.sd.lk (.guard 0), taskOk s, taskAt s)) i
      (false, none, none, true, false) (by rw [List.take_of_length_le (by rw [hlen]; exact hi)]; decide +kernel)
    simpa only [Prod.mk.injEq] using this
  have hT : ∀ m < 25, (sexec taskProg ((Core.go 0 25).take m)).map (fun s => (taskOk s, taskAt s)) = some (true, decide (m = 9)) := by decide +kernel
  have hok : ∀ m, taskOk (r.st m) = true ∧ (taskAt (r.st m) = true → m = 9) := fun m => by
    rcases Nat.lt_or_ge m 25 with hm | hm
    · have := h3 (fun s => (taskOk s, taskAt s)) m _ (hT m hm)
      simp only [Prod.mk.injEq] at this
      exact ⟨this.1, fun h => by rw [this.2] at h; simpa using h⟩
    · have := hE m hm
      exact ⟨this.2.2.2.1, fun h => by rw [this.2.2.2.2] at h; cases h⟩
  have hf : r.Strong 0 := fun i hi => by
    obtain ⟨q, h6, ch, h7⟩ := hi (max i 25) (by omega)
    have h8 := of_decide_eq_false (hE q (by omega)).1
    unfold step at h7
    split at h7
    · cases h7
    · dsimp only at h7
      rw [if_pos h8] at h7
      cases h7
  have hdr : ∀ F L, Drops r 0 F L := fun F L t c l fn x i hi _ => by have := (hok i).1; simp [taskOk, hi] at this
  have hS : ∀ L, Sets r 0 0 L := fun L =>
    ⟨hf, fun i => ⟨max i 25, by omega, (hE _ (by omega)).2.1⟩, fun i x _ => ⟨max i 25, by omega, by rw [(hE _ (by omega)).2.2.1]; simp⟩,
    fun _ _ _ _ => hdr _ _, fun _ _ _ => hdr _ _, fun _ _ _ i hi _ => by have := (hok i).1; simp [taskOk, hi] at this,
    fun _ _ i hi _ => by have := (hok i).1; simp [taskOk, hi] at this⟩
  refine ⟨r, by rw [hr0]; exact ⟨[], rfl⟩, ⟨fun i hi _ => ?_, hS _, hS _⟩, h3 (fun s => s.stk 0) 7 _ (by decide +kernel),
    h3 (fun s => (s.thr 0).exc) 7 _ (by decide +kernel), by rw [h3 (fun s => s.data.sd.lk (.guard 0)) 7 none (by decide +kernel)]; simp,
    h3 (fun s => s.stk 0) 8 _ (by decide +kernel), h3 (fun s => (s.thr 0).exc) 8 _ (by decide +kernel),
    by rw [h3 (fun s => s.data.sd.lk (.guard 0)) 8 none (by decide +kernel)]; simp, h3 (fun s => s.data.sd.ready 0) 8 _ (by decide +kernel),
    h3 (fun s => (s.thr 0).exc) 10 _ (by decide +kernel)⟩
  obtain rfl := (hok i).2 (by simp [taskAt, hi])
  refine ⟨10, by omega, h3 (fun s => s.stk 0) 10 _ (by decide +kernel), fun m g1 g2 => ?_⟩
  obtain rfl : m = 9 := by omega
  exact ⟨[], _, hi⟩

end Itc
