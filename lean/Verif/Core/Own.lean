import Verif.Core.Post
import Verif.Core.Top

/-!
# Code that runs on a thread with a certain id (proof infrastructure, no claims)

`Own`: client frames `f` with `o f = some id` occur only in tasks posted to `id`. The thread that runs them is the one that was
registered under that id, and as long as it still is, that registration is its local context.
-/
namespace Itc
namespace Core
section
variable {τ φ δ χ : Type} {C : Client τ φ δ χ} {d : δ} {f0 : φ}

theorem own_back {s s' : St τ φ δ} {t : Nat} (he : Eff C s t s') {c : Nat} (hc : c < s.nctx) (h : InReg s' c) : InReg s c := by
  have same : SameReg s s' → InReg s c := fun hreg => by
    obtain ⟨i, hi⟩ := h
    rw [hreg.contexts] at hi
    exact ⟨i, hi⟩
  cases he
  case regFound n? n c' self rest hold hself hfind hgen hidm hcon hn hctx hloc hstk hlog => obtain ⟨i, hi⟩ := h; rw [hcon] at hi; exact ⟨i, hi⟩
  case regNew n? n self rest hold hself hfind hgen hidm hcon hn hctx hloc hstk hlog =>
    obtain ⟨i, hi⟩ := h
    rw [hcon] at hi
    simp only [List.mem_append, List.mem_singleton, Prod.mk.injEq] at hi
    rcases hi with hi | ⟨-, rfl⟩
    · exact ⟨i, hi⟩
    · omega
  case unreg c' rest hold hfind hgen hn hidm hcon hctx hloc hstk hlog =>
    obtain ⟨i, hi⟩ := h
    rw [hcon] at hi
    exact ⟨i, (List.mem_filter.1 hi).1⟩
  all_goals exact same (by assumption)

/-- One step of the thread that has the registration. -/
theorem own_step {s s' : St τ φ δ} {t : Nat} {ch : Ch χ} (hr : Reach C d f0 s) (hs : step C s (.th t ch) = some s') {g : Frame τ φ} {new r : List (Frame τ φ)}
    (hst : s.stk t = g :: r) (hst' : s'.stk t = new ++ r) {c id : Nat} (hc : Ev.registered c id t ∈ s.log)
    (h : InReg s c → s.loc t = some c ∧ g ≠ .core .unregClear) (h' : InReg s' c) : s'.loc t = some c ∧ .core .unregClear ∉ new := by
  have he := step_eff C s s' t ch hs
  have hw := WF.reach hr
  obtain ⟨hlt, hid, hnat⟩ := ((LInv.reach hr).regd c id t).1 hc
  have hin := own_back he hlt h'
  obtain ⟨hl, hg⟩ := h hin
  have fin : ∀ {new' rest' old}, s.stk t = old :: rest' → s'.stk = upd s.stk t (new' ++ rest') → s'.loc = s.loc → (.core .unregClear ∉ new') →
      s'.loc t = some c ∧ .core .unregClear ∉ new := by
    intro new' rest' old h1 h2 h3 h4
    rw [hst] at h1
    cases h1
    rw [h2, upd_same] at hst'
    rw [← List.append_cancel_right hst', h3]
    exact ⟨hl, h4⟩
  have pl : ∀ {new' : List (Frame τ φ)}, (∀ f ∈ new', f.plain = true) → .core .unregClear ∉ new' := fun h hm => by
    have := h _ hm; simp [Frame.plain] at this
  have stay : s'.stk = s.stk → s'.loc = s.loc → s'.loc t = some c ∧ .core .unregClear ∉ new := by
    intro h1 h2
    rw [h1, hst] at hst'
    have : new = [g] := (List.append_cancel_right (as := [g]) hst').symm
    subst this
    rw [h2]
    exact ⟨hl, by simpa using Ne.symm hg⟩
  have gid : s.getId t = id := by
    have : (s.thr t).loc = some c := hl
    simp [St.getId, this, hid]
  obtain ⟨i, hi⟩ := hin
  obtain ⟨-, hid', -⟩ := hw.mem i c hi
  have hii : i = id := hid'.symm.trans hid
  subst hii
  have hfc := hw.toRegOK.find_of_mem hi
  cases he
  case ctl es old new' rest hreg hctx hloc hold holdp hstk hnewp hdl hlog hes hok hfr => exact fin hold hstk hloc (pl hnewp)
  case halt hreg hctx hloc hstk hlog => exact stay hstk hloc
  case fin hreg hctx hold hloc hstk hlog => rw [hst] at hold; cases hold
  case spawn n f v rest hreg hctx hold hfree hne hloc hstk hlog =>
    rw [hst] at hold; cases hold
    rw [hstk, upd_same] at hst'
    have : new = [] := by
      have := congrArg List.length hst'; simp at this; exact this
    subst this
    rw [hloc, upd_ne _ _ (Ne.symm hne)]
    exact ⟨hl, by simp⟩
  case regDone c' self rest hreg hctx hold hloc hstk hlog =>
    cases self with
    | false => exact fin (new' := [_]) hold hstk (by simpa using hloc) (by simp)
    | true =>
      obtain ⟨hn', i', hi'⟩ := hw.regd t c' rest hold
      have h1 := (hw.idm t i).2 ⟨c, hi, hnat⟩
      have h2 := (hw.idm t i').2 ⟨c', hi', hn'⟩
      rw [h1] at h2; cases h2
      have h3 := hw.toRegOK.find_of_mem hi'
      rw [hfc] at h3; cases h3
      rw [hst] at hold; cases hold
      rw [hstk, upd_same] at hst'
      have : new = [_] := (List.append_cancel_right (as := [_]) hst').symm
      subst this
      rw [hloc]
      simp
  case unregNone rest hreg hctx hold hfind hloc hstk hlog => rw [gid, hfc] at hfind; cases hfind
  case unreg c' rest hold hfind hgen hn hidm hcon hctx hloc hstk hlog =>
    obtain ⟨i', hi'⟩ := h'
    rw [hcon, List.mem_filter, gid] at hi'
    obtain ⟨-, h2, -⟩ := hw.mem _ _ hi'.1
    simp [← h2, hid] at hi'
  case unregClear rest hreg hctx hold hloc hstk hlog => rw [hst] at hold; cases hold; exact absurd rfl hg
  case hold id' c' f g' rest hreg hold hf hg' hgt hgu hgd hgp hgr hgf hfind hctx hloc hstk hlog =>
    exact fin (new' := [_]) hold hstk hloc (by simp; rintro rfl; simp [Frame.isUnreg] at hgu)
  case start c' k x r' f rest w hreg hold hf halive hpop hctx hloc hstk hlog => exact fin (new' := [_, _]) hold hstk hloc (by simp)
  case freed c' k r' new' rest es hreg hold halive hctx hloc hstk hnewp hnewd hlog hes hes' hfr => exact fin hold hstk hloc (pl hnewp)
  case rewait c' dl rest hreg hold halive hw' hctx hloc hstk hlog => exact stay hstk hloc
  all_goals first
    | exact fin (new' := []) (by assumption) (by assumption) (by assumption) (by simp)
    | exact fin (new' := [_]) (by assumption) (by assumption) (by assumption) (by simp)
    | exact fin (new' := [_, _]) (by assumption) (by assumption) (by assumption) (by simp)

/-- A task is started from the local context. -/
theorem start_loc {s s' : St τ φ δ} {t : Nat} (he : Eff C s t s') (hw : WF s) {g : Frame τ φ} {rest : List (Frame τ φ)} (hst : s.stk t = g :: rest)
    {a : φ} {c : Nat} {k : τ} {r : Cont} (hst' : s'.stk t = .client a :: .core (.ran c k r) :: rest) : s'.loc t = some c := by
  have key : ∀ {new' rest' old}, s.stk t = old :: rest' → s'.stk = upd s.stk t (new' ++ rest') → .core (.ran c k r) ∈ new' := by
    intro new' rest' old h1 h2
    rw [hst] at h1
    cases h1
    rw [h2, upd_same] at hst'
    have e : new' = [.client a, .core (.ran c k r)] := List.append_cancel_right (bs := rest) hst'
    rw [e]
    simp
  have stay : s'.stk = s.stk → False := by
    intro h
    rw [h, hst] at hst'
    have := congrArg List.length hst'
    simp at this
  have pl : ∀ {new' : List (Frame τ φ)}, (∀ f ∈ new', f.plain = true) → .core (.ran c k r) ∉ new' := fun h hm => by
    have := h _ hm; simp [Frame.plain] at this
  cases he
  case ctl es old new' rest hreg hctx hloc hold holdp hstk hnewp hdl hlog hes hok hfr => exact absurd (key hold hstk) (pl hnewp)
  case halt hreg hctx hloc hstk hlog => exact (stay hstk).elim
  case fin hreg hctx hold hloc hstk hlog => rw [hst] at hold; cases hold
  case spawn n f v rest hreg hctx hold hfree hne hloc hstk hlog =>
    rw [hst] at hold; cases hold
    rw [hstk, upd_same] at hst'
    have := congrArg List.length hst'
    simp at this
    omega
  case hold id' c' f g' rest hreg hold hf hg' hgt hgu hgd hgp hgr hgf hfind hctx hloc hstk hlog =>
    have := key (new' := [_]) hold hstk
    simp only [List.mem_singleton] at this
    have h2 := hgt c
    rw [← this] at h2
    simp [Frame.task] at h2
  case start c' k' x r' f rest w hreg hold hf halive hpop hctx hloc hstk hlog =>
    have := key (new' := [_, _]) hold hstk
    simp only [List.mem_cons, reduceCtorEq, List.not_mem_nil, or_false, false_or, Frame.core.injEq, CF.ran.injEq] at this
    obtain ⟨rfl, rfl, rfl⟩ := this
    rw [hloc]
    rcases hf with ⟨-, h, -⟩ | ⟨dl, rfl, -⟩
    · exact h
    · exact hw.prk t c dl rest hold
  case freed c' k r' new' rest es hreg hold halive hctx hloc hstk hnewp hnewd hlog hes hes' hfr => exact absurd (key hold hstk) (pl hnewp)
  case rewait c' dl rest hreg hold halive hw' hctx hloc hstk hlog => exact (stay hstk).elim
  all_goals
    first
    | (have := key (new' := []) (by assumption) (by assumption); simp at this; done)
    | (have := key (new' := [_]) (by assumption) (by assumption); simp at this; done)
    | (have := key (new' := [_, _]) (by assumption) (by assumption); simp at this; done)

theorem mem_accs {c : Nat} {k : τ} {l : List (Ev τ)} (h : k ∈ accs c l) : ∃ t i, Ev.accepted t c i k ∈ l := by
  induction l with
  | nil => simp [accs, extract] at h
  | cons e l ih =>
    simp only [accs, extract, List.mem_append] at h
    rcases h with h | h
    · obtain ⟨t, i, h⟩ := ih h
      exact ⟨t, i, by simp [h]⟩
    · cases e <;> simp at h
      obtain ⟨rfl, rfl⟩ := h
      exact ⟨_, _, List.mem_cons_self⟩

structure Own (C : Client τ φ δ χ) (J : St τ φ δ → Prop) (T : Post C J) where
  o : φ → Option Nat
  run : ∀ {s u i k id}, J s → T.P s.data u i k → o (C.run k) = some id → id = i ∧ i ≠ 0
  destroy : ∀ k, o (C.destroy k) = none
  code : ∀ {s}, J s → Codes (fun f => o f = none) s
  throw : ∀ {f e f'}, C.onThrow f e = some f' → o f' = none
  push : ∀ {s : St τ φ δ} {t f rest ch d' g k}, J s → s.stk t = .client f :: rest → C.step (s.view t) s.data f (s.thr t).rv ch = some (d', .push g k) → o g = none
  cont : ∀ {v d f rv ch d' a k id}, C.step v d f rv ch = some (d', a) → a.cont = some k → o k = some id → o f = some id

def Own.Ok {J : St τ φ δ → Prop} {T : Post C J} (O : Own C J T) (s : St τ φ δ) : Prop :=
  ∀ t pre f rest id, s.stk t = pre ++ .client f :: rest → O.o f = some id →
    ∃ c, Ev.registered c id t ∈ s.log ∧ (InReg s c → s.loc t = some c ∧ .core .unregClear ∉ pre)

theorem split_new {l1 l2 new r : List β} {x : β} (h : new ++ r = l1 ++ x :: l2) : (∃ q, new = l1 ++ x :: q ∧ l2 = q ++ r) ∨ ∃ p, l1 = new ++ p ∧ r = p ++ x :: l2 := by
  induction new generalizing l1 with
  | nil => exact .inr ⟨l1, rfl, h⟩
  | cons y new ih =>
    cases l1 with
    | nil => simp at h; exact .inl ⟨new, by simp [h.1], h.2.symm⟩
    | cons z l1 =>
      simp at h
      obtain ⟨rfl, h⟩ := h
      rcases ih h with ⟨q, rfl, hq⟩ | ⟨p, rfl, hp⟩
      · exact .inl ⟨q, by simp, hq⟩
      · exact .inr ⟨p, rfl, hp⟩

theorem Own.sound {J : St τ φ δ → Prop} {T : Post C J} (O : Own C J T) (h0 : O.o f0 = none) (hJ : ∀ s, Reach C d f0 s → J s) {s : St τ φ δ}
    (h : Reach C d f0 s) : O.Ok s := by
  refine Reach.induct O.Ok ?_ ?_ h
  · intro t pre f rest id hst ho
    exfalso
    have hm : .client f ∈ (Core.init d f0 : St τ φ δ).stk t := by rw [hst]; simp
    by_cases h1 : t = 0
    · subst h1; simp [Core.init, St.stk] at hm; subst hm; rw [h0] at ho; cases ho
    · simp [Core.init, St.stk, upd_ne _ _ h1] at hm
  intro s l s' hr q hs
  have hj := hJ s hr
  cases l with
  | tick n => rw [step_tick _ s s' n hs]; exact q
  | th t ch =>
    have he := step_eff C s s' t ch hs
    have hlog := log_mono he
    intro u pre f rest id hst ho
    by_cases hu : u = t
    · subst hu
      cases hst0 : s.stk u with
      | nil =>
        exfalso
        rcases step_cl hs with ⟨f, rest, d', a, hexc, hold, -⟩ | ⟨f, rest, hexc, hold, -⟩ | ⟨e, hexc, hst', -⟩ | ⟨e, f, k, rest, hexc, hold, -⟩ | ⟨e, f, rest, hexc, hold, -⟩ |
          ⟨e, g, g', rest, hexc, hold, -⟩ | ⟨e, g, rest, hexc, hold, -⟩ | ⟨hold, hst', -⟩
        all_goals first | (rw [hst0] at hold; cases hold; done) | (rw [hst'] at hst; try rw [hst0] at hst); simp at hst
      | cons g r =>
        -- a frame that was there before
        have old : ∀ {new : List (Frame τ φ)} {p}, s'.stk u = new ++ r → r = p ++ .client f :: rest →
            ∃ c, Ev.registered c id u ∈ s'.log ∧ (InReg s' c → s'.loc u = some c ∧ .core .unregClear ∉ new ++ p) := by
          intro new p h1 h2
          obtain ⟨c, hc, hI⟩ := q u (g :: p) f rest id (by rw [hst0, h2]; rfl) ho
          refine ⟨c, hlog _ hc, fun hi => ?_⟩
          have hi0 := own_back he (((LInv.reach hr).regd c id u).1 hc).1 hi
          have h3 := own_step hr hs hst0 h1 hc (fun hi0 => ⟨(hI hi0).1, fun e => (hI hi0).2 (by simp [e])⟩) hi
          refine ⟨h3.1, ?_⟩
          rw [List.mem_append, not_or]
          exact ⟨h3.2, fun hm => (hI hi0).2 (by simp [hm])⟩
        -- the top frame has been replaced by one with the same owner
        have repl : ∀ {new : List (Frame τ φ)} {f1 : φ}, g = .client f1 → O.o f1 = some id → s'.stk u = new ++ .client f :: r → .core .unregClear ∉ new →
            ∃ c, Ev.registered c id u ∈ s'.log ∧ (InReg s' c → s'.loc u = some c ∧ .core .unregClear ∉ new) := by
          intro new f1 hg h1 h2 h3
          obtain ⟨c, hc, hI⟩ := q u [] f1 r id (by rw [hst0, hg]; rfl) h1
          refine ⟨c, hlog _ hc, fun hi => ?_⟩
          have := own_step (new := new ++ [.client f]) hr hs hst0 (by rw [h2]; simp) hc (fun hi0 => ⟨(hI hi0).1, by rw [hg]; simp⟩) hi
          exact ⟨this.1, h3⟩
        have mem : ∀ {new : List (Frame τ φ)}, s'.stk u = new ++ r → (∀ p q', new = p ++ .client f :: q' →
              ∃ c, Ev.registered c id u ∈ s'.log ∧ (InReg s' c → s'.loc u = some c ∧ .core .unregClear ∉ p)) →
            ∃ c, Ev.registered c id u ∈ s'.log ∧ (InReg s' c → s'.loc u = some c ∧ .core .unregClear ∉ pre) := by
          intro new h1 h2
          rw [h1] at hst
          rcases split_new hst with ⟨q', h3, h4⟩ | ⟨p, rfl, h4⟩
          · exact h2 pre q' h3
          · exact old h1 h4
        have no1 : ∀ {x : Frame τ φ} {p q' : List (Frame τ φ)}, [x] = p ++ .client f :: q' → p = [] ∧ x = .client f ∧ q' = [] := by
          intro x p q' h
          cases p with
          | nil => simp at h; exact ⟨rfl, h.1, h.2⟩
          | cons y p => simp at h
        have no2 : ∀ {x y : Frame τ φ} {p q' : List (Frame τ φ)}, [x, y] = p ++ .client f :: q' → (p = [] ∧ x = .client f) ∨ (p = [x] ∧ y = .client f) := by
          intro x y p q' h
          cases p with
          | nil => simp at h; exact .inl ⟨rfl, h.1⟩
          | cons z p =>
            cases p with
            | nil => simp at h; exact .inr ⟨by rw [h.1], h.2.1⟩
            | cons z' p => simp at h
        rcases step_cl hs with ⟨f1, r1, d', a, hexc, hold, hstep, hdata, hact, -⟩ | ⟨f1, r1, hexc, hold, hcs, hdata, hcore⟩ | ⟨e, hexc, hst', -⟩ |
          ⟨e, f1, k, r1, hexc, hold, hf, hst', -⟩ | ⟨e, f1, r1, hexc, hold, hf, hst', -⟩ |
          ⟨e, f1, f1', r1, hexc, hold, hg, hst', -⟩ | ⟨e, f1, r1, hexc, hold, hg, hst', -⟩ | ⟨hold, hst', -⟩
        · rw [hst0] at hold; cases hold
          have hk := fun {k} (h : a.cont = some k) => O.cont (id := id) hstep h
          cases a <;> simp only [ActTo] at hact
          case goto x =>
            refine mem (new := [_]) hact.1 fun p q' h => ?_
            obtain ⟨rfl, h, -⟩ := no1 h
            cases h
            exact repl (new := []) rfl (hk rfl ho) hact.1 (by simp)
          case push x y =>
            refine mem (new := [_, _]) hact.1 fun p q' h => ?_
            rcases no2 h with ⟨rfl, h⟩ | ⟨rfl, h⟩ <;> cases h
            · rw [O.push hj hst0 hstep] at ho; cases ho
            · exact repl (new := [_]) rfl (hk rfl ho) hact.1 (by simp)
          case call x y =>
            refine mem (new := [_, _]) hact.1 fun p q' h => ?_
            rcases no2 h with ⟨rfl, h⟩ | ⟨rfl, h⟩ <;> cases h
            exact repl (new := [_]) rfl (hk rfl ho) hact.1 (by cases x <;> simp [Api.entry])
          case ret v => exact mem (new := []) hact.1 (by simp)
          case throw v => exact mem (new := []) hact.1 (by simp)
          case terminate =>
            refine mem (new := [_]) (hact.1.trans hst0) fun p q' h => ?_
            obtain ⟨rfl, h, -⟩ := no1 h
            cases h
            exact repl (new := []) rfl ho (hact.1.trans hst0) (by simp)
        · rw [hst0] at hold; cases hold
          have cod := (O.code hj).code u _ (by rw [hst0]; simp : .core f1 ∈ s.stk u)
          have hcb := (O.code hj).cb
          have hp := (T.sound hJ hr).fr u f1
          have hlg := (T.sound hJ hr).log
          have ran : ∀ {k c' r'}, s'.stk u = .client (C.run k) :: .core (.ran c' k r') :: r → k ∈ (s.ctxs c').pend → f = C.run k →
              ∃ c, Ev.registered c id u ∈ s'.log ∧ (InReg s' c → s'.loc u = some c ∧ .core .unregClear ∉ ([] : List (Frame τ φ))) := by
            rintro k c' r' h1 h2 rfl
            have h3 : k ∈ accs c' s.log := by rw [(QInv.reach hr).cons c']; simp [h2]
            obtain ⟨v, i, h4⟩ := mem_accs h3
            obtain ⟨rfl, -⟩ := O.run hj (hlg v c' i k h4) ho
            obtain ⟨l1, l2, h5⟩ := List.append_of_mem h4
            obtain ⟨n, h6⟩ := (LInv.reach hr).hist.split h5
            have h7 : Ev.registered c' id n ∈ s.log := by rw [h5]; simp [h6]
            have h8 : Ev.started u c' k ∈ s'.log := (LInv.reach (hr.step hs)).fr u (.core (.ran c' k r')) (by rw [h1]; simp)
            obtain ⟨l1, l2, h9⟩ := List.append_of_mem h8
            obtain ⟨id', h10⟩ := (LInv.reach (hr.step hs)).hist.split h9
            have h11 : Ev.registered c' id' u ∈ s'.log := by rw [h9]; simp [h10]
            have e1 := ((LInv.reach (hr.step hs)).regd _ _ _).1 h11
            have e2 := ((LInv.reach (hr.step hs)).regd _ _ _).1 (hlog _ h7)
            obtain rfl : id' = id := e1.2.1.symm.trans e2.2.1
            exact ⟨c', h11, fun _ => ⟨start_loc he (WF.reach hr) hst0 h1, by simp⟩⟩
          rcases hcs with ⟨new, h, hst', -⟩ | ⟨v, -, hst', -⟩ | ⟨e, -, hst', -⟩ | ⟨-, hst', -⟩
          · refine mem hst' fun p q' hn => ?_
            clear mem
            cases h <;> first
              | (obtain ⟨-, h, -⟩ := no1 hn; cases h; done)
              | (rcases no2 hn with ⟨rfl, h⟩ | ⟨rfl, h⟩ <;> first | (cases h; done) | skip)
            all_goals first
              | (cases h; rw [O.destroy] at ho; cases ho; done)
              | (cases h; exact ran hst' (by assumption) rfl)
              | (cases h; rw [hcb _ (by assumption)] at ho; cases ho; done)
              | skip
            · rename_i id' k' hid
              cases h
              obtain ⟨rfl, hne⟩ := O.run hj (hp id' k' (by rw [hst0]; simp) rfl) ho
              simp only [stepCore, hid, if_true, Option.some.injEq] at hcore
              subst hcore
              simp only [St.getId] at hid
              split at hid
              · exact absurd hid.symm hne
              · rename_i c hc
                obtain ⟨h1, h2, -⟩ := (WF.reach hr).loc u c hc
                refine ⟨c, hlog _ (((LInv.reach hr).regd c id u).2 ⟨h1, hid, h2⟩), fun _ => ⟨?_, by simp⟩⟩
                simpa [St.loc, St.setStk, St.ev] using hc
            · cases h
              simp only [CFOK] at cod
              rw [cod _ rfl 0] at ho; cases ho
          · exact mem (new := []) hst' (by simp)
          · exact mem (new := []) hst' (by simp)
          · refine mem (new := [_]) (hst'.trans hst0) fun p q' h => ?_
            obtain ⟨-, h, -⟩ := no1 h
            cases h
        · refine mem (new := [_]) (hst'.trans hst0) fun p q' h => ?_
          obtain ⟨rfl, h, -⟩ := no1 h
          exact repl (new := []) h ho (by rw [hst', hst0, h]; rfl) (by simp)
        · rw [hst0] at hold; cases hold
          refine mem (new := [_, _]) hst' fun p q' h => ?_
          rcases no2 h with ⟨rfl, h⟩ | ⟨rfl, h⟩ <;> cases h
          rw [O.destroy] at ho; cases ho
        · rw [hst0] at hold; cases hold
          exact mem (new := []) hst' (by simp)
        · rw [hst0] at hold; cases hold
          refine mem (new := [_]) hst' fun p q' h => ?_
          obtain ⟨rfl, h, -⟩ := no1 h
          cases h
          rw [O.throw hg] at ho; cases ho
        · rw [hst0] at hold; cases hold
          exact mem (new := []) hst' (by simp)
        · rw [hst0] at hold; cases hold
    · rcases hr.stk_oth hu hs with ⟨h1, -⟩ | ⟨f', r', h1, -, -, h3, -⟩
      · rw [h1] at hst
        obtain ⟨c, hc, hI⟩ := q u pre f rest id hst ho
        refine ⟨c, hlog _ hc, fun hi => ?_⟩
        have := (step_thr_other (FreeOK.reach hr) hu (by rw [hst]; simp) hs).2.2.2
        have h3 : s'.loc u = s.loc u := this
        rw [h3]
        exact hI (own_back he (((LInv.reach hr).regd c id u).1 hc).1 hi)
      · exfalso
        rw [h3] at hst
        have hm : (.client f : Frame τ φ) ∈ [.client f'] := by rw [hst]; simp
        simp at hm
        subst hm
        have := (O.code hj).code t (.spawnIn u f) (by rw [h1]; simp)
        simp only [CFOK] at this
        rw [this 0] at ho; cases ho

end
end Core
end Itc
