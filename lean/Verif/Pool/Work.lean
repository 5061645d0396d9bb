import Verif.Pool.Ret
import Verif.Sync.ACore
import Verif.Sync.ABody
import Verif.Sync.ASet
import Verif.Core.Calls
import Verif.Core.Own

/-!
# Thread pool: the threads of the workers (proof infrastructure, no claims)
-/
namespace Itc
namespace Pool
open Core Sync
section
variable {α φ δ χ : Type} {U : PApp α φ δ χ} {u0 : δ} {f0 : φ} {s s' : PSt α φ δ}

theorem rv_keep {τ φ δ χ : Type} {C : Client τ φ δ χ} {d : δ} {i0 : φ} {s s' : St τ φ δ} (hr : Reach C d i0 s) {t : Nat} {f : φ} {rest : List (Frame τ φ)}
    (hst : s.stk t = .client f :: rest) {l : Lbl χ} (hs : Core.step C s l = some s') (hst' : s'.stk t = .client f :: rest)
    (hk : ∀ e f', C.onThrow f e = some f' → f' ≠ f) : (s'.thr t).rv = (s.thr t).rv := by
  cases l with
  | tick n => rw [step_tick _ s s' n hs]
  | th u ch =>
    by_cases hu : t = u
    · subst hu
      simp only [St.stk] at hst hst'
      simp only [Core.step] at hs
      split at hs
      · cases hs
      split at hs
      · cases hs
      split at hs
      · rw [hst] at hs
        obtain rfl := Option.some.inj hs
        simp only [stepExc] at hst' ⊢
        split at hst'
        · rename_i f' hf
          simp only [upd_same, List.cons.injEq, Frame.client.injEq, and_true] at hst'
          exact absurd hst' (hk _ _ hf)
        · simp only [St.setStk, upd_same] at hst'
          have := congrArg List.length hst'
          simp at this
      · rw [hst] at hs
        simp only [stepClient] at hs
        split at hs
        · cases hs
        · split at hs <;> obtain rfl := Option.some.inj hs <;> simp only [St.setStk, upd_same] at hst' ⊢ <;> first
            | rfl
            | (have := congrArg List.length hst'; simp at this; done)
            | (have := congrArg List.length hst'; simp at this; omega)
    · exact (step_thr_other (FreeOK.reach hr) hu (by rw [hst]; simp) hs).2.1

def wcE : PFrame α φ → Option (Api (PTask α) (PFrame α φ))
  | .newId _ _ _ n _ => some (.registerNative n)
  | .nw _ _ (some x) _ => some (.dispatch x.w (.check x))
  | _ => none

/-- Calls of register_thread(native id) and of dispatch by the pool. -/
def wc (U : PApp α φ δ χ) (u0 : δ) (f0 : φ) : AC (poolApp U) { u := u0 } (.usr f0) where
  E := wcE
  R s t _ b := match b with
    | .registerNative n => ∃ c id, (s.thr t).rv = .nat id ∧ Ev.registered c id n ∈ s.log
    | .dispatch id k => DisR t id (.app k) s.log
    | _ => True
  e0 := rfl
  run a := by cases a <;> exact ⟨rfl, rfl⟩
  throw h := by
    rcases pool_throw h with ⟨g, g', rfl, rfl⟩ | ⟨i, l, c, K, rfl, rfl⟩ | ⟨i, o, K, rfl, rfl⟩ | ⟨i, o, l, K, rfl, rfl⟩ <;> rfl
  code h := code_z (F := fun g => wcE g = none) (fun _ => rfl) rfl h
  push {v ad f rv ch ad' g k} hs := by
    generalize hx : (SAct.push g k : SAct (PTask α) (PFrame α φ)) = x at hs
    cases pool_pc hs with
    | usr g ch u wa hU =>
      have hl := liftP_cases wa
      clear hs hU
      rw [← hx] at hl
      generalize hy : (SAct.push _ k : SAct (PTask α) (PFrame α φ)) = y at hl
      cases hl <;> first | (cases hy; done) | skip
      · cases hy; rfl
      · cases hy; rename_i a _; cases a <;> rfl
    | ck => cases hx
    | ps f d' a' hf hb hP => cases hP <;> cases hx
  cont {v ad f rv ch ad' sa k b} hs hk hb := by
    rcases pool_cont hs hk with ⟨g, rfl⟩ | ⟨a, rfl⟩ | ⟨x, id, c, -, -, rfl⟩ | hP
    · cases hb
    · cases a <;> cases hb
    · cases hb
    · clear hs
      cases hP <;> simp only [liftAct, Act.cont, Option.some.injEq, reduceCtorEq, SFrame.app.injEq] at hk <;> subst hk <;>
        first | (cases hb; done) | (cases hb; rfl)
  fin {s0 s s' t n b k rest l} hk hr hst hf hs hend := by
    cases k <;> first | (cases hk; done) | skip
    case newId => cases hk; exact (regPh t _ _).fin hr hst rfl hf hs hend
    case nw i l cur K =>
      cases cur <;> cases hk
      exact (disPh t _ _ _).fin hr hst ⟨rfl, rfl⟩ hf hs hend
  stab {s s' t b k rest l} hk hr hst h hs hst' := by
    cases k <;> first | (cases hk; done) | skip
    case newId =>
      cases hk
      obtain ⟨c, id, h1, h2⟩ := h
      refine ⟨c, id, (rv_keep hr hst hs hst' ?_).trans h1, step_logm hs h2⟩
      intro e k' h
      cases h
    case nw i l cur K =>
      cases cur <;> cases hk
      rcases h with ⟨c, h⟩ | h | h
      · exact .inl ⟨c, step_logm hs h⟩
      · exact .inr (.inl (step_logm hs h))
      · exact .inr (.inr (step_logm hs h))

/-! ## Workers are registered -/

/-- New `worker` events. -/
theorem worker_new {v : View} {ad : PData α δ} {f : PFrame α φ} {rv : Val} {ch : Ch (PCh χ)} {ad' : PData α δ} {a : SAct (PTask α) (PFrame α φ)}
    (h : (poolApp U).step v ad f rv ch = some (ad', a)) {t i l n id : Nat} (hm : .worker t i l n id ∈ ad'.plog) :
    .worker t i l n id ∈ ad.plog ∨ rv = .nat id ∧ ∃ h ws, f = .newId i h l n ws := by
  cases pool_pc h with
  | usr g ch u wa hU => exact .inl hm
  | ck x d' id c hP => cases hP <;> (rcases List.mem_cons.1 hm with hm | hm; cases hm; exact .inl hm)
  | ps f d' a hf hb hP =>
    clear h
    cases hP
    case newId hv =>
      rcases List.mem_cons.1 hm with hm | hm
      · cases hm; exact .inr ⟨hv, _, _, rfl⟩
      · exact .inl hm
    case caIn i K =>
      rcases List.mem_append.1 hm with hm | hm
      · obtain ⟨j, -, h⟩ := dropEvs_mem.1 hm
        cases hc : j.call <;> rw [hc] at h <;> cases h
      · exact .inl hm
    case wtEnd i k dn =>
      cases dn
      · rcases List.mem_cons.1 hm with hm | hm; cases hm; exact .inl hm
      · rcases List.mem_cons.1 hm with hm | hm
        · cases hm
        · rcases List.mem_cons.1 hm with hm | hm; cases hm; exact .inl hm
    case wtGo i k dn p l =>
      cases dn
      · exact .inl hm
      · rcases List.mem_cons.1 hm with hm | hm; cases hm; exact .inl hm
    all_goals first
      | exact .inl hm
      | (rcases List.mem_cons.1 hm with hm | hm; cases hm; exact .inl hm)
      | (subst_vars; exact .inl hm)
      | (subst_vars; rcases List.mem_cons.1 hm with hm | hm; cases hm; exact .inl hm)

theorem worker_reg (hr : PR U u0 f0 s) {t i l n id : Nat} (hm : .worker t i l n id ∈ s.data.ad.plog) : ∃ c, Ev.registered c id n ∈ s.log := by
  refine Reach.induct (fun s : PSt α φ δ => .worker t i l n id ∈ s.data.ad.plog → ∃ c, Ev.registered c id n ∈ s.log) (by intro h; simp [Core.init] at h) ?_ hr hm
  intro s l' s' hr q hs hm
  have low : .worker t i l n id ∈ s.data.ad.plog → ∃ c, Ev.registered c id n ∈ s'.log := fun h => (q h).imp fun _ h => step_logm hs h
  cases l' with
  | tick n => rw [step_tick _ s s' n hs] at hm; exact low hm
  | th t ch =>
    cases mv hr hs with
    | app g rest a he hst hd hact hA =>
      obtain ⟨ch', hA⟩ := hA
      rcases worker_new hA hm with h | ⟨h1, h, ws, rfl⟩
      · exact low h
      · obtain ⟨c, id', h2, h3⟩ := (wc U u0 f0).top hr hst rfl
        rw [h1] at h2
        cases h2
        exact ⟨c, step_logm hs h3⟩
    | sync f rest a he hst hS hact had => rw [had] at hm; exact low hm
    | hand e f f' rest he hst hn hf hst' he' hd had => rw [had] at hm; exact low hm
    | drop e f rest he hst hn hf hst' he' hd had => rw [had] at hm; exact low hm
    | core f rest pre hst hpre hst' hd had => rw [had] at hm; exact low hm
    | still hst' he' hd had => rw [had] at hm; exact low hm

theorem reg_uniq {τ φ δ χ : Type} {C : Client τ φ δ χ} {d : δ} {i0 : φ} {s : St τ φ δ} (hr : Reach C d i0 s) {c c' id n n' : Nat} (h : Ev.registered c id n ∈ s.log)
    (h' : Ev.registered c' id n' ∈ s.log) : c = c' ∧ n = n' ∧ id ≠ 0 := by
  have h1 := ((LInv.reach hr).regd _ _ _).1 h
  have h2 := ((LInv.reach hr).regd _ _ _).1 h'
  have hw := (WF.reach hr).toRegOK
  have hc := hw.inj _ _ h1.1 h2.1 (h1.2.1.trans h2.2.1.symm)
  subst hc
  have := (hw.ids _ h1.1).1
  exact ⟨rfl, h1.2.2.symm.trans h2.2.2, by omega⟩

/-! ## Notifications run on the thread of the worker -/

/-- check_jobs is only posted to the worker it was made for. -/
def wp (U : PApp α φ δ χ) (u0 : δ) (f0 : φ) : Post (client (poolApp U)) (PR U u0 f0) where
  P d _ i k := ∀ x, k = .app (.check x) → i = x.w ∧ WkOf d.ad x
  step := by
    intro s t f rest ch d' a hr he hst hs
    cases client_cs hs with
    | app g ad sa hA =>
      have hle := ty_step hr he hst hA
      refine ⟨fun u i k h x hx => ⟨(h x hx).1, hle.wkOf (h x hx).2⟩, ?_⟩
      intro api f' i k ha hp x hk
      subst hk
      have hF := tyF hr (t := t) (f := g) (by rw [hst]; simp)
      have key : ∀ b k', sa = .core b k' → mapApi b = api → i = x.w ∧ WkOf ad x := by
        rintro b k' h1 h2
        clear hs
        cases pool_pc hA with
        | usr g ch u wa hU =>
          have hl := liftP_cases wa
          generalize liftP wa = y at hl h1
          cases hl <;> first | (cases h1; done) | skip
          rename_i b' _
          cases h1
          cases b' <;> simp only [mapP, mapApi] at h2 <;> subst h2 <;> cases hp
        | ck x d' id c hP => cases h1
        | ps f d' a hf hb hP =>
          clear hA
          cases hP <;> first | (cases h1; done) | (cases h1; subst h2; cases hp; done) | skip
          cases h1; subst h2; cases hp
          exact ⟨rfl, hF.2.1 x (by simp) |>.2⟩
      cases sa <;> simp only [liftAct] at ha <;> try (cases ha; done)
      cases ha
      exact key _ _ rfl rfl
    | sync f sd a hS =>
      refine ⟨fun _ _ _ h => h, ?_⟩
      intro api f' i k ha hp x hk
      subst hk
      clear hs
      generalize s.data.sd = d0 at hS
      cases hS
      case laRet K c => exact (laNext_call ha).elim
      case laEnd K c => exact (laNext_call ha).elim
      all_goals first
        | (cases ha; done)
        | (cases ha; cases hp; done)

def wb (U : PApp α φ δ χ) (u0 : δ) (f0 : φ) : Typing (client (poolApp U)) (PR U u0 f0) :=
  body (poolApp U) { u := u0 } (.usr f0) (fun a => ∀ x, a ≠ .check x) (by
    intro v ad f rv ch ad' b k a hs hb x hx
    subst hx
    generalize hy : (SAct.sync b k : SAct (PTask α) (PFrame α φ)) = y at hs
    cases pool_pc hs with
    | usr g ch u wa hU =>
      have hl := liftP_cases wa
      clear hs hU
      generalize liftP wa = z at hl hy
      cases hl <;> first | (cases hy; done) | skip
      rename_i b0 b1 k0 h0
      cases hy
      cases b0 <;> simp only [mapS, Option.some.injEq, reduceCtorEq] at h0 <;> subst h0 <;> cases hb
    | ck x d' id c hP => cases hy
    | ps f d' a hf hb' hP =>
      clear hs
      cases hP <;> cases hy <;> cases hb)

def woF : SFrame (PTask α) (PFrame α φ) → Option Nat
  | .app (.ckIn x) => some x.w
  | .app (.ckBody x) => some x.w
  | .app (.ckUnl x _ _) => some x.w
  | .app (.ckGo x _ _) => some x.w
  | .app (.ckRan x _ _) => some x.w
  | _ => none

def wo (U : PApp α φ δ χ) (u0 : δ) (f0 : φ) : Own (client (poolApp U)) (PR U u0 f0) (wp U u0 f0) where
  o := woF
  run {s u i k id} hr hp ho := by
    cases k with
    | noop => cases ho
    | fut p a => cases ho
    | app a =>
      cases a <;> cases ho
      rename_i x
      obtain ⟨h1, t, n, h2, -⟩ := hp x rfl
      obtain ⟨c, h3⟩ := worker_reg hr h2
      exact ⟨h1.symm, h1 ▸ (reg_uniq hr h3 h3).2.2⟩
  destroy k := by
    cases k with
    | noop => rfl
    | fut p a => rfl
    | app a => cases a <;> rfl
  code {s} hr := by
    refine Codes.reach ?_ hr
    intro v d f rv ch d' a k hs
    have key : ∀ x, (client (poolApp U)).step v d f rv ch = some (d', x) → x = .call a k → ApiOK (fun _ g => woF g = none) (fun _ => True) a := by
      intro x hs hx
      cases client_cs hs with
      | app g ad sa hA =>
        clear hs
        cases sa <;> simp [liftAct] at hx
        obtain ⟨rfl, -⟩ := hx
        rename_i a' k'
        have := code_z (F := fun g => woF (α := α) (.app g) = none) (fun _ => rfl) rfl hA
        clear hA
        cases a' <;> simp only [mapApi, ApiOK] at this ⊢ <;> first | trivial | exact this | skip
        intro f hf u
        simp only [Option.mem_def, Option.map_eq_some_iff] at hf
        obtain ⟨g, hg, rfl⟩ := hf
        exact this g hg u
      | sync f sd x hS =>
        cases hS
        case laRet K c => exact (laNext_call hx).elim
        case laEnd K c => exact (laNext_call hx).elim
        all_goals first | (cases hx; done) | (cases hx; trivial)
    exact key _ hs rfl
  throw := by
    intro f e f' h
    have h : sThrow (poolApp U).onThrow _ _ = _ := h
    cases f <;> first
      | (cases h; done)
      | (have h := Option.some.inj h; subst h; rfl)
      | skip
    simp only [sThrow, Option.map_eq_some_iff] at h
    obtain ⟨x, hx, rfl⟩ := h
    rcases pool_throw hx with ⟨g, g', rfl, rfl⟩ | ⟨i, l, c, K, rfl, rfl⟩ | ⟨i, o, K, rfl, rfl⟩ | ⟨i, o, l, K, rfl, rfl⟩ <;> rfl
  push := by
    intro s t f rest ch d' g k hr hst hs
    have hB := ((wb U u0 f0).sound (fun _ h => h) (by intro p c hc; simp at hc) trivial hr).fr t (.client f) (by rw [hst]; simp)
    generalize hx : (Act.push g k : Act (STask (PTask α)) (SFrame (PTask α) (PFrame α φ))) = x at hs
    cases client_cs hs with
    | app g' ad sa hA =>
      cases sa <;> simp only [liftAct] at hx <;> cases hx
      · rename_i g' k'
        generalize hx : (SAct.push g' k' : SAct (PTask α) (PFrame α φ)) = x at hA
        cases pool_pc hA with
        | usr g ch u wa hU =>
          have hl := liftP_cases wa
          generalize liftP wa = z at hl hx
          cases hl <;> first | (cases hx; done) | skip
          · cases hx; rfl
          · cases hx; rename_i a _; cases a <;> rfl
        | ck => cases hx
        | ps f d' a' hf hb hP => cases hP <;> cases hx
      · rename_i a _; cases a <;> rfl
    | sync f sd a hS =>
      cases hS
      case laRet K c => cases K <;> simp only [laNext] at hx <;> (try split at hx) <;> cases hx <;> rfl
      case laEnd K c => cases K <;> simp only [laNext] at hx <;> (try split at hx) <;> cases hx <;> rfl
      case ftRun p b =>
        cases hx
        cases b <;> first | rfl | exact absurd rfl (hB.1 _)
      case ftDtor p b => cases hx; cases b <;> rfl
      all_goals first | (cases hx; done) | (cases hx; rfl)
  cont := by
    intro v d f rv ch d' a k id hs hk ho
    cases client_cs hs with
    | app g ad sa hA =>
      obtain ⟨k, rfl⟩ := liftAct_cont hk
      clear hs
      rcases pool_cont hA hk with ⟨g, rfl⟩ | ⟨a, rfl⟩ | ⟨x, id, c, rfl, -, rfl⟩ | hP
      · cases ho
      · cases a <;> cases ho
      · exact ho
      · clear hA
        cases hP <;> simp only [liftAct, Act.cont, Option.some.injEq, reduceCtorEq, SFrame.app.injEq] at hk <;> subst hk <;>
          first | (cases ho; done) | exact ho
    | sync f sd a hS =>
      cases k <;> first | (cases ho; done) | skip
      exact absurd hk (hS.cont_app _)

theorem wo_ok (hr : PR U u0 f0 s) : (wo U u0 f0).Ok s := (wo U u0 f0).sound rfl (fun _ h => h) hr

/-- The thread that executes check_jobs has, or had, the id of the worker; while that id is registered it is the thread's own context. -/
theorem ck_run (hr : PR U u0 f0 s) {t : Nat} {x : Tok} {f : PFrame α φ} (hf : (f = .ckIn x ∨ f = .ckBody x) ∨ ∃ id c, f = .ckUnl x id c ∨ f = .ckGo x id c ∨ ∃ c, f = .ckRan x id c) (hm : .client (.app f) ∈ s.stk t) :
    ∃ c, Ev.registered c x.w t ∈ s.log ∧ (InReg s c → s.loc t = some c) ∧ ∃ t', .worker t' x.i x.L t x.w ∈ s.data.ad.plog := by
  obtain ⟨pre, rest, h⟩ := List.append_of_mem hm
  obtain ⟨c, h1, h2⟩ := wo_ok hr t pre (.app f) rest x.w h (by rcases hf with (rfl | rfl) | ⟨_, _, rfl | rfl | ⟨_, rfl⟩⟩ <;> rfl)
  refine ⟨c, h1, fun hi => (h2 hi).1, ?_⟩
  have hF := tyF hr hm
  have hw : WkOf s.data.ad x := by rcases hf with (rfl | rfl) | ⟨_, _, rfl | rfl | ⟨_, rfl⟩⟩ <;> first | exact hF.1.2 | exact hF.2
  obtain ⟨t', n, h3, -⟩ := hw
  obtain ⟨c', h4⟩ := worker_reg hr h3
  obtain ⟨-, rfl, -⟩ := reg_uniq hr h1 h4
  exact ⟨t', h3⟩

theorem ck_thread (hr : PR U u0 f0 s) {t : Nat} {x : Tok} {f : PFrame α φ} (hf : f = .ckIn x ∨ f = .ckBody x) (hm : .client (.app f) ∈ s.stk t) :
    ∃ c, Ev.registered c x.w t ∈ s.log ∧ (InReg s c → s.loc t = some c) ∧ ∃ t', .worker t' x.i x.L t x.w ∈ s.data.ad.plog := ck_run hr (.inl hf) hm

/-- Which frame writes an event. -/
def evBy (v : View) (f : PFrame α φ) : PEv α → Prop
  | .took t i L _ _ _ => t = v.tid ∧ ∃ x, f = .ckBody x ∧ x.i = i ∧ x.L = L
  | .skipped t i L _ => t = v.tid ∧ ∃ x, f = .ckBody x ∧ x.i = i ∧ x.L = L
  | .idle t i L => t = v.tid ∧ ∃ x, f = .ckBody x ∧ x.i = i ∧ x.L = L
  | .exits t x => t = v.tid ∧ f = .ckIn x ∧ v.exit = true
  | _ => True

theorem plog_new {v : View} {ad : PData α δ} {f : PFrame α φ} {rv : Val} {ch : Ch (PCh χ)} {ad' : PData α δ} {a : SAct (PTask α) (PFrame α φ)}
    (h : (poolApp U).step v ad f rv ch = some (ad', a)) : ∃ es, ad'.plog = es ++ ad.plog ∧ ∀ e ∈ es, evBy v f e := by
  cases pool_pc h with
  | usr g ch u wa hU => exact ⟨[], rfl, by simp⟩
  | ck x d' id c hP => cases hP <;> exact ⟨[_], rfl, by simp [evBy]⟩
  | ps f d' a hf hb hP =>
    clear h
    cases hP
    case caIn i K =>
      refine ⟨_, rfl, fun e he => ?_⟩
      obtain ⟨j, -, h⟩ := dropEvs_mem.1 he
      cases hc : j.call <;> rw [hc] at h <;> subst h <;> trivial
    case wtEnd i k dn => cases dn <;> first | exact ⟨[_, _], rfl, by simp [evBy]⟩ | exact ⟨[_], rfl, by simp [evBy]⟩
    case wtGo i k dn p l => cases dn <;> first | exact ⟨[_], rfl, by simp [evBy]⟩ | exact ⟨[], rfl, by simp⟩
    all_goals first
      | exact ⟨[], rfl, by simp⟩
      | (refine ⟨[_], rfl, ?_⟩; simp only [List.mem_singleton, forall_eq]; first | trivial | exact ⟨rfl, rfl, by assumption⟩)
      | (subst_vars; exact ⟨[], rfl, by simp⟩)
      | (subst_vars; exact ⟨[_], rfl, by simp [evBy]⟩)

/-- Events of check_jobs come from the thread of a worker of that level. -/
def ckFact : PEv α → List (PEv α) → Prop
  | .took t i L _ _ _, l => ∃ t' w, .worker t' i L t w ∈ l
  | .skipped t i L _, l => ∃ t' w, .worker t' i L t w ∈ l
  | .idle t i L, l => ∃ t' w, .worker t' i L t w ∈ l
  | .exits t x, l => ∃ t', .worker t' x.i x.L t x.w ∈ l
  | _, _ => True

theorem Hst.append {P : PEv α → List (PEv α) → Prop} {l : List (PEv α)} (h : Hst P l) : ∀ {es : List (PEv α)}, (∀ e ∈ es, ∀ l', l <:+ l' → P e l') → Hst P (es ++ l)
  | [], _ => h
  | e :: es, he => Hst.cons (Hst.append h (es := es) fun e hm => he e (by simp [hm])) (he e (by simp) _ (List.suffix_append _ _))

theorem ck_hist (hr : PR U u0 f0 s) : Hst ckFact s.data.ad.plog := by
  refine data_ind (fun ad => Hst ckFact ad.plog) Hst.nil ?_ hr
  intro s t ch f rest ad' a hr q he hst hA
  obtain ⟨es, h1, h2⟩ := plog_new hA
  rw [h1]
  refine q.append fun e hm l' hl => ?_
  have h3 := h2 e hm
  have hck : ∀ {x}, f = .ckIn x ∨ f = .ckBody x → ∃ t', .worker t' x.i x.L t x.w ∈ l' := by
    intro x hx
    obtain ⟨c, -, -, t', h⟩ := ck_thread hr (t := t) hx (by rw [hst]; simp)
    exact ⟨t', hl.subset h⟩
  cases e <;> first | trivial | skip
  case exits => obtain ⟨rfl, h, -⟩ := h3; exact hck (.inl h)
  all_goals
    obtain ⟨rfl, x, h, rfl, rfl⟩ := h3
    obtain ⟨t', h⟩ := hck (.inr h)
    exact ⟨t', _, h⟩

/-- check_jobs gives up only on a worker that is told to exit or is unregistered. -/
theorem exits_why (hr : PR U u0 f0 s) {t : Nat} {x : Tok} (hm : .exits t x ∈ s.data.ad.plog) :
    ∃ c, Ev.registered c x.w t ∈ s.log ∧ (Ev.unregistered c x.w t ∈ s.log ∨ Ev.exitSet c ∈ s.log) := by
  refine Reach.induct (fun s : PSt α φ δ => .exits t x ∈ s.data.ad.plog → ∃ c, Ev.registered c x.w t ∈ s.log ∧ (Ev.unregistered c x.w t ∈ s.log ∨ Ev.exitSet c ∈ s.log))
    (by intro h; simp [Core.init] at h) ?_ hr hm
  intro s l' s' hr q hs hm
  have up : (∃ c, Ev.registered c x.w t ∈ s.log ∧ (Ev.unregistered c x.w t ∈ s.log ∨ Ev.exitSet c ∈ s.log)) →
      ∃ c, Ev.registered c x.w t ∈ s'.log ∧ (Ev.unregistered c x.w t ∈ s'.log ∨ Ev.exitSet c ∈ s'.log) :=
    fun ⟨c, h1, h2⟩ => ⟨c, step_logm hs h1, h2.imp (step_logm hs) (step_logm hs)⟩
  have low : .exits t x ∈ s.data.ad.plog → _ := fun h => up (q h)
  cases l' with
  | tick n => rw [step_tick _ s s' n hs] at hm; exact low hm
  | th u ch =>
    cases mv hr hs with
    | app g rest a he hst hd hact hA =>
      obtain ⟨ch', hA⟩ := hA
      obtain ⟨es, h1, h2⟩ := plog_new hA
      rw [h1] at hm
      rcases List.mem_append.1 hm with hm | hm
      · obtain ⟨ht, rfl, hx⟩ := h2 _ hm
        have ht : t = u := ht
        subst ht
        obtain ⟨c, h3, h4, -⟩ := ck_thread hr (t := t) (f := .ckIn x) (.inl rfl) (by rw [hst]; simp)
        refine up ⟨c, h3, ?_⟩
        by_cases hi : InReg s c
        · have hn : s.notified t = true := hx
          rcases (notified_iff hr t).1 hn with h | ⟨c', h, h'⟩
          · rw [h4 hi] at h; cases h
          · rw [h4 hi] at h; cases h; exact .inr h'
        · have h5 := ((LInv.reach hr).regd _ _ _).1 h3
          exact .inl (((LInv.reach hr).unr _ _ _).2 ⟨h5.1, hi, h5.2⟩)
      · exact low hm
    | sync f rest a he hst hS hact had => rw [had] at hm; exact low hm
    | hand e f f' rest he hst hn hf hst' he' hd had => rw [had] at hm; exact low hm
    | drop e f rest he hst hn hf hst' he' hd had => rw [had] at hm; exact low hm
    | core f rest pre hst hpre hst' hd had => rw [had] at hm; exact low hm
    | still hst' he' hd had => rw [had] at hm; exact low hm

end
end Pool
end Itc
