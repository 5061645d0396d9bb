import Verif.Sync.Sem
import Verif.Sync.Act
import Verif.Core.Keep

/-!
# A signalled waiter gets its wake-up (proof infrastructure, no claims)
-/
namespace Itc
namespace Core
section
variable {τ φ δ χ : Type}

set_option tactic.hygienic false in
theorem inReg_back {C : Client τ φ δ χ} {s s' : St τ φ δ} {t c : Nat} (he : Eff C s t s') (hc : c < s.nctx) (h : InReg s' c) : InReg s c := by
  obtain ⟨i, hi⟩ := h
  cases he
  case regNew =>
    rw [hcon] at hi
    simp only [List.mem_append, List.mem_singleton, Prod.mk.injEq] at hi
    rcases hi with hi | ⟨-, hi⟩
    · exact ⟨i, hi⟩
    · omega
  case unreg =>
    rw [hcon] at hi
    exact ⟨i, (List.mem_filter.1 hi).1⟩
  case regFound => rw [hcon] at hi; exact ⟨i, hi⟩
  all_goals (rw [hreg.contexts] at hi; exact ⟨i, hi⟩)

/-- Frames of a thread that is about to block or blocked in wait / wait_for. -/
def isBlk : CF τ φ → Prop
  | .waitIn _ => True
  | .waitForIn _ => True
  | .parked _ _ => True
  | _ => False

theorem stk_start (C : Client τ φ δ χ) (s : St τ φ δ) (t c : Nat) (k : τ) (x : Ctx τ) (r : Cont) (rest : List (Frame τ φ)) :
    (s.startTask C t c k x r rest).stk t = .client (C.run k) :: .core (.ran c k r) :: rest := by
  simp [St.startTask, St.stk, St.setStk]

theorem blk_own {C : Client τ φ δ χ} {s s' : St τ φ δ} {t : Nat} {F : CF τ φ} {rest : List (Frame τ φ)} {ch : Ch χ} (hF : isBlk F)
    (hst : s.stk t = .core F :: rest) (h : stepCore C s t F rest ch = some s') :
    (∃ F', s'.stk t = .core F' :: rest ∧ isBlk F' ∧ s'.contexts = s.contexts ∧ s'.nctx = s.nctx ∧ s'.loc t = s.loc t ∧
      ∀ c, (s'.ctxs c).pend = (s.ctxs c).pend ∧ (s'.ctxs c).exit = (s.ctxs c).exit ∧ (s'.ctxs c).id = (s.ctxs c).id) ∨
    s'.stk t = rest ∨ ∃ k c r, s'.stk t = .client (C.run k) :: .core (.ran c k r) :: rest := by
  have cx : ∀ (c : Nat) (x : Ctx τ), x.pend = (s.ctxs c).pend → x.exit = (s.ctxs c).exit → x.id = (s.ctxs c).id → ∀ c',
      (upd s.ctxs c x c').pend = (s.ctxs c').pend ∧ (upd s.ctxs c x c').exit = (s.ctxs c').exit ∧ (upd s.ctxs c x c').id = (s.ctxs c').id := by
    intro c x h1 h2 h3 c'
    by_cases hc : c' = c
    · subst hc; simp [h1, h2, h3]
    · simp [upd_ne _ _ hc]
  have same : s'.stk t = s.stk t → s'.contexts = s.contexts → s'.nctx = s.nctx → s'.loc t = s.loc t → s'.ctxs = s.ctxs → ∃ F', s'.stk t = .core F' :: rest ∧ isBlk F' ∧ s'.contexts = s.contexts ∧ s'.nctx = s.nctx ∧ s'.loc t = s.loc t ∧
      ∀ c, (s'.ctxs c).pend = (s.ctxs c).pend ∧ (s'.ctxs c).exit = (s.ctxs c).exit ∧ (s'.ctxs c).id = (s.ctxs c).id := by
    intro h1 h2 h3 h4 h5
    exact ⟨F, h1.trans hst, hF, h2, h3, h4, by simp [h5]⟩
  cases F <;> first | exact False.elim hF | skip
  case waitIn d =>
    simp only [stepCore] at h
    repeat' (split at h)
    all_goals obtain rfl := Option.some.inj h
    · right; left; simp [St.ret, St.stk]
    · left; exact same rfl rfl rfl rfl rfl
    · right; right; exact ⟨_, _, _, stk_start _ _ _ _ _ _ _ _⟩
    · right; left; simp [St.ret, St.stk]
    · left; refine ⟨.parked _ _, by simp [St.setStk, St.stk, St.setCtx]; exact ⟨rfl, rfl⟩, trivial, rfl, rfl, by simp [St.loc, St.setStk, St.setCtx], ?_⟩
      exact cx _ _ rfl rfl rfl
  case waitForIn d =>
    simp only [stepCore] at h
    split at h <;> obtain rfl := Option.some.inj h
    · right; left; simp [St.ret, St.stk]
    · left; exact ⟨.waitIn _, by simp [St.setStk, St.stk]; rfl, trivial, rfl, rfl, by simp [St.loc, St.setStk], fun c => ⟨rfl, rfl, rfl⟩⟩
  case parked c dl =>
    simp only [stepCore] at h
    repeat' (split at h)
    all_goals first | contradiction | obtain rfl := Option.some.inj h
    · left; exact same rfl rfl rfl rfl rfl
    all_goals first
      | (right; right; exact ⟨_, _, _, stk_start _ _ _ _ _ _ _ _⟩)
      | (right; left; simp [St.ret, St.stk, St.setCtx]; done)
      | (left; exact ⟨.parked _ _, hst, trivial, rfl, rfl, rfl, cx _ _ rfl rfl rfl⟩)
end
end Core
namespace Sync
open Core
section
variable {α φ δ χ : Type}

/-- Program points between the test of the token and the blocking call. -/
def critF : SFrame α φ → Prop
  | .swChk _ _ _ => True
  | .swBefore _ _ _ => True
  | .wfChk _ _ _ _ _ _ => True
  | .wfBefore _ _ _ _ _ => True
  | _ => False

/-- Thread `u` has tested token `k` of its wait on `S` and is blocked or about to block. -/
inductive Crit (s : SSt α φ δ) (u : Nat) (S : SemId) (i k : Nat) : Prop
  | top (g : SFrame α φ) (rest : List (Fr α φ)) (h : s.stk u = .client g :: rest) (hc : critF g) (hw : wtok g = some (S, i, k))
  | blk (F : CF (STask α) (SFrame α φ)) (g : SFrame α φ) (rest : List (Fr α φ)) (h : s.stk u = .core F :: .client g :: rest) (hF : isBlk F)
      (hw : wtok g = some (S, i, k))

/-- Thread `v` is delivering the wake-up of token `k` to the thread with id `i` and context `c`. -/
inductive Dlvr (s : SSt α φ δ) (v i k c : Nat) : Prop
  | call (K : NK α) (l : List (Nat × Nat)) (rest : List (Fr α φ)) (h : s.stk v = .client (.nCall K i k l) :: rest)
  | disp (K : NK α) (l : List (Nat × Nat)) (rest : List (Fr α φ)) (h : s.stk v = .core (.dispatch i .noop) :: .client (.nAfter K i k l) :: rest)
  | look (K : NK α) (l : List (Nat × Nat)) (rest : List (Fr α φ)) (h : s.stk v = .core (.invLook i .noop true) :: .client (.nAfter K i k l) :: rest)
  | push (K : NK α) (l : List (Nat × Nat)) (rest : List (Fr α φ)) (h : s.stk v = .core (.invPush c .noop) :: .client (.nAfter K i k l) :: rest)

theorem no_pop {A : App α φ δ χ} {ad : δ} {f0 : φ} {s : SSt α φ δ} (hr : SR A ad f0 s) {u : Nat} {x : Fr α φ} {rest : List (Fr α φ)}
    (hst : s.stk u = x :: rest) : (∀ g r, rest = .client g :: r → ¬ critF g) ∧ (∀ F r, rest = .core F :: r → ¬ isBlk F) := by
  have hch := (stk_ok hr).chain u
  rw [hst] at hch
  constructor
  · rintro g r rfl hg
    have := hch.1
    cases g <;> first | exact False.elim hg | exact this
  · rintro F r rfl hF
    have := hch.1
    cases F <;> first | exact False.elim hF | exact this | skip
    have := (WF.reach hr).tail u (.core (.parked _ _)) (by rw [hst]; simp; exact .inl ⟨rfl, rfl⟩)
    simp [Frame.leaf] at this

theorem Crit.not_rest {A : App α φ δ χ} {ad : δ} {f0 : φ} {s s' : SSt α φ δ} (hr : SR A ad f0 s) {u : Nat} {x : Fr α φ} {rest : List (Fr α φ)}
    (hst : s.stk u = x :: rest) (hst' : s'.stk u = rest) {S : SemId} {i k : Nat} (hc : Crit s' u S i k) : False := by
  have hn := no_pop hr hst
  cases hc with
  | top g r h hc hw => exact hn.1 g r (hst'.symm.trans h) hc
  | blk F g r h hF hw => exact hn.2 F _ (hst'.symm.trans h) hF

theorem Crit.cl {s' : SSt α φ δ} {u : Nat} {g : SFrame α φ} {rest : List (Fr α φ)} (hst' : s'.stk u = .client g :: rest) {S : SemId} {i k : Nat}
    (hc : Crit s' u S i k) : critF g ∧ wtok g = some (S, i, k) := by
  cases hc with
  | top g r h hc hw => rw [hst'] at h; cases h; exact ⟨hc, hw⟩
  | blk F g r h hF hw => rw [hst'] at h; cases h

theorem triv_crit {f : SFrame α φ} (h : trivF f) : ¬ critF f := by cases f <;> first | exact id | exact False.elim h

theorem sThrow_crit {onThrow : φ → Exn → Option φ} {f f' : SFrame α φ} {e : Exn} (h : sThrow onThrow f e = some f') : ¬ critF f' := by
  cases f <;> simp only [sThrow, Option.some.injEq, reduceCtorEq, Option.map_eq_some_iff] at h
  · obtain ⟨x, -, rfl⟩ := h; exact id
  all_goals subst h; exact id

theorem client_triv {A : App α φ δ χ} (k : STask α) : trivF ((client A).run k) ∧ trivF ((client A).destroy k) := by cases k <;> exact ⟨trivial, trivial⟩

theorem laNext_goto {K : LK α} {c : Kont α} {b : Bool} {g : SFrame α φ} (h : laNext K c b = .goto g) : ¬ critF g := by
  cases K <;> cases b <;> simp [laNext] at h <;> subst h <;> exact id

theorem laNext_push {K : LK α} {c : Kont α} {b : Bool} {g k : SFrame α φ} (h : laNext K c b = .push g k) : ¬ critF g := by
  cases K <;> cases b <;> simp [laNext] at h; obtain ⟨rfl, -⟩ := h; exact id

/-- The thread's own steps: either it has just found its token unset, or it was there before and nothing changed. -/
theorem crit_own {A : App α φ δ χ} {ad : δ} {f0 : φ} {s s' : SSt α φ δ} (hr : SR A ad f0 s) {u : Nat} {ch : Ch χ}
    (hs : Core.step (client A) s (.th u ch) = some s') (hterm' : s'.term = false) {S : SemId} {i k : Nat} (hc : Crit s' u S i k) :
    s'.data.sd.tok k = false ∨ (Crit s u S i k ∧ s'.data.sd.tok = s.data.sd.tok ∧ s'.loc u = s.loc u ∧ s'.contexts = s.contexts ∧
      ∀ c, (s'.ctxs c).pend = (s.ctxs c).pend ∧ (s'.ctxs c).exit = (s.ctxs c).exit ∧ (s'.ctxs c).id = (s.ctxs c).id) := by
  have hterm := step_live hs
  rcases step_cl hs with ⟨f, rest, d', a, hexc, hold, hstep, hdata, hact, -, hctx, -, hloc, hcon, -⟩ | ⟨f, rest, hexc, hold, hcs, hdata, hcore⟩ | ⟨e, hexc, hst, ht, -, hdata, -⟩ |
    ⟨e, f, k, rest, hexc, hold, hf, hst, hexc', hdata, -⟩ | ⟨e, f, rest, hexc, hold, hf, hst, -, hdata, -⟩ |
    ⟨e, g, g', rest, hexc, hold, hg, hst, hexc', hdata, -⟩ | ⟨e, g, rest, hexc, hold, hg, hst, -, hdata, -⟩ | ⟨hold, hst, hexc', hdata, -⟩
  · have hsame : ∀ c, (s'.ctxs c).pend = (s.ctxs c).pend ∧ (s'.ctxs c).exit = (s.ctxs c).exit ∧ (s'.ctxs c).id = (s.ctxs c).id := by simp [hctx]
    have stay : ∀ g, critF g → wtok g = some (S, i, k) → f = g → s'.data.sd.tok = s.data.sd.tok → (Crit s u S i k ∧ s'.data.sd.tok = s.data.sd.tok ∧ s'.loc u = s.loc u ∧ s'.contexts = s.contexts ∧
      ∀ c, (s'.ctxs c).pend = (s.ctxs c).pend ∧ (s'.ctxs c).exit = (s.ctxs c).exit ∧ (s'.ctxs c).id = (s.ctxs c).id) := by
      rintro g h1 h2 rfl h3
      exact ⟨.top _ _ hold h1 h2, h3, by rw [hloc], hcon, hsame⟩
    cases client_cs hstep with
    | app g ad' sa hA =>
      exfalso
      cases sa <;> simp only [liftAct, ActTo] at hact
      · exact (hc.cl hact.1).1
      · exact (hc.cl hact.1).1
      · cases hc with
        | top g r h hc hw => rw [hact.1] at h; cases h
        | blk F g r h hF hw => rw [hact.1] at h; cases h; cases hw
      · rename_i a k'
        have := (hc.cl hact.1).1
        cases a <;> exact this
      · exact hc.not_rest hr hold hact.1
      · exact hc.not_rest hr hold hact.1
      · have := hact.1.trans hold
        exact (hc.cl this).1
    | sync f sd a hS =>
      have hsd : s'.data.sd = sd := by rw [hdata]
      generalize ha : a = a' at hS
      have hact' := ha ▸ hact
      cases hS
      case laRet K c =>
        exfalso
        generalize hn : laNext K c (decide ((s.thr u).rv ≠ .bool true)) = x at hact'
        cases x <;> simp only [ActTo] at hact'
        · exact laNext_goto hn (hc.cl hact'.1).1
        · exact laNext_push hn (hc.cl hact'.1).1
        · exact laNext_call hn
        · exact hc.not_rest hr hold hact'.1
        · exact hc.not_rest hr hold hact'.1
        · exact (hc.cl (hact'.1.trans hold)).1
      case laEnd K c =>
        exfalso
        generalize hn : laNext K c true = x at hact'
        cases x <;> simp only [ActTo] at hact'
        · exact laNext_goto hn (hc.cl hact'.1).1
        · exact laNext_push hn (hc.cl hact'.1).1
        · exact laNext_call hn
        · exact hc.not_rest hr hold hact'.1
        · exact hc.not_rest hr hold hact'.1
        · exact (hc.cl (hact'.1.trans hold)).1
      case swNot w i' k' h =>
        have h2 := (hc.cl hact'.1).2
        simp only [wtok, Option.some.injEq, Prod.mk.injEq] at h2
        obtain ⟨-, -, rfl⟩ := h2
        left; rw [hsd]; exact h
      case wfNot w i' k' now e b h he =>
        have h2 := (hc.cl hact'.1).2
        simp only [wtok, Option.some.injEq, Prod.mk.injEq] at h2
        obtain ⟨-, -, rfl⟩ := h2
        left; rw [hsd]; exact h
      case swStay w i' k' h => exact .inr (stay (.swChk _ _ _) trivial (hc.cl hact'.1).2 rfl (by rw [hsd]))
      case wfStay w i' k' now e b h => exact .inr (stay (.wfChk _ _ _ _ _ _) trivial (hc.cl hact'.1).2 rfl (by rw [hsd]))
      case swBefore w i' k' =>
        cases hc with
        | top g r h hc hw => rw [hact'.1] at h; cases h
        | blk F g r h hF hw => rw [hact'.1] at h; cases h; exact .inr (stay (.swBefore _ _ _) trivial hw rfl (by rw [hsd]; cases w <;> rfl))
      case wfBefore w i' k' now e =>
        cases hc with
        | top g r h hc hw => rw [hact'.1] at h; cases h
        | blk F g r h hF hw => rw [hact'.1] at h; cases h; exact .inr (stay (.wfBefore _ _ _ _ _) trivial hw rfl (by rw [hsd]; cases w <;> rfl))
      all_goals first
        | exact (hc.cl hact'.1).1.elim
        | exact (hc.not_rest hr hold hact'.1).elim
        | exact ((hc.cl (hact'.1.trans hold)).1).elim
        | (exfalso; cases hc with
           | top g r h hc hw => rw [hact'.1] at h; cases h
           | blk F g r h hF hw => rw [hact'.1] at h; cases h; first | exact hF | cases hw)
  · by_cases hF : isBlk f
    · rcases blk_own hF hold hcore with ⟨F', h1, h2, h3, h4, h5, h6⟩ | h | ⟨k', c, r, h⟩
      · right
        cases hc with
        | top g r h hc hw => rw [h1] at h; cases h
        | blk F g r h _ hw =>
          rw [h1] at h; cases h
          exact ⟨.blk _ _ _ hold hF hw, by rw [hdata], h5, h3, h6⟩
      · exact (hc.not_rest hr hold h).elim
      · exact (triv_crit (client_triv k').1 (hc.cl h).1).elim
    · exfalso
      rcases hcs with ⟨new, h, hst, -⟩ | ⟨v, -, hst, -⟩ | ⟨e, -, hst, -⟩ | ⟨-, hst, -⟩
      · have hcodes := codes hr
        cases hc with
        | top g r h' hc hw =>
          rw [hst] at h'
          cases h <;> simp only [List.cons_append, List.nil_append, List.cons.injEq, Frame.client.injEq, reduceCtorEq, false_and] at h'
          all_goals first
            | exact triv_crit (client_triv _).2 (h'.1 ▸ hc)
            | exact triv_crit (client_triv _).1 (h'.1 ▸ hc)
            | (refine triv_crit ?_ (h'.1 ▸ hc)
               have := hcodes.code u _ (by rw [hold]; exact List.mem_cons_self)
               first
                 | exact hcodes.cb _ ‹_›
                 | exact this _ rfl 0
                 | exact this)
        | blk F g r h' hF' hw =>
          rw [hst] at h'
          cases h <;> simp only [List.cons_append, List.nil_append, List.cons.injEq, Frame.core.injEq, reduceCtorEq, false_and, and_false] at h'
          all_goals first
            | exact hF trivial
            | (rw [← h'.1] at hF'; exact hF')
      · exact hc.not_rest hr hold hst
      · exact hc.not_rest hr hold hst
      · cases hc with
        | top g r h hc hw => rw [hst, hold] at h; cases h
        | blk F g r h hF' hw => rw [hst, hold] at h; cases h; exact hF hF'
  · simp [ht] at hterm'
  · exact (triv_crit (client_triv _).2 (hc.cl hst).1).elim
  · exact (hc.not_rest hr hold hst).elim
  · exact (sThrow_crit hg (hc.cl hst).1).elim
  · exact (hc.not_rest hr hold hst).elim
  · cases hc with
    | top g r h hc hw => rw [hst] at h; cases h
    | blk F g r h hF' hw => rw [hst] at h; cases h

/-- The deliverer's own steps: it goes on delivering, or the wake-up has arrived. -/
theorem dlvr_own {A : App α φ δ χ} {ad : δ} {f0 : φ} {s s' : SSt α φ δ} (hr : SR A ad f0 s) {u v c k : Nat} {ch : Ch χ}
    (hs : Core.step (client A) s (.th v ch) = some s') (hterm' : s'.term = false) (hne : u ≠ v) (hloc : s.loc u = some c) (hreg : InReg s c)
    (hd : Dlvr s v (s.ctxs c).id k c) : Dlvr s' v (s.ctxs c).id k c ∨ (s'.ctxs c).pend ≠ [] := by
  have hwf := WF.reach hr
  have hmem := hwf.inReg_iff.1 hreg
  have hi0 : (s.ctxs c).id ≠ 0 := by
    have := hwf.ids c (hwf.loc u c hloc).1
    omega
  have hid : s.getId v ≠ (s.ctxs c).id := fun h => hne (id_uniq hwf hloc h).symm
  have halive : (s.ctxs c).life = .alive := (hwf.mem _ _ hmem).2.2
  have core : ∀ {F : CF (STask α) (SFrame α φ)} {rest : List (Fr α φ)}, s.stk v = .core F :: rest → F.running = none → F.unwinds = false →
      ∃ f rest', s.stk v = .core f :: rest' ∧ stepCore (client A) s v f rest' ch = some s' := by
    intro F rest hst hrun hunw
    rcases step_cl hs with ⟨f, rest, d', a, hexc, hold, hstep, hdata, hact, -⟩ | ⟨f, rest, hexc, hold, hcs, hdata, hcore⟩ | ⟨e, hexc, -, ht, -⟩ |
      ⟨e, f, k, rest, hexc, hold, hf, -⟩ | ⟨e, f, rest, hexc, hold, hf, -⟩ |
      ⟨e, g, g', rest, hexc, hold, -⟩ | ⟨e, g, rest, hexc, hold, -⟩ | ⟨hold, -⟩
    · rw [hold] at hst; cases hst
    · exact ⟨f, rest, hold, hcore⟩
    · simp [ht] at hterm'
    · rw [hold] at hst; cases hst; rw [hrun] at hf; cases hf
    · rw [hold] at hst; cases hst; rw [hunw] at hf; cases hf
    · rw [hold] at hst; cases hst
    · rw [hold] at hst; cases hst
    · rw [hold] at hst; cases hst
  cases hd with
  | call K l rest h =>
    have hne : (s.thr v).exc = none := by
      by_contra he
      exact (stk_ok hr).exc v _ _ he h trivial
    rcases step_cl hs with ⟨f, rest, d', a, hexc, hold, hstep, hdata, hact, -⟩ | ⟨f, rest, hexc, hold, hcs, hdata, hcore⟩ | ⟨e, hexc, -, ht, -⟩ |
      ⟨e, f, k, rest, hexc, hold, hf, -⟩ | ⟨e, f, rest, hexc, hold, hf, -⟩ |
      ⟨e, g, g', rest, hexc, hold, -⟩ | ⟨e, g, rest, hexc, hold, -⟩ | ⟨hold, -⟩
    · rw [hold] at h
      obtain ⟨rfl, rfl⟩ : f = .nCall K (s.ctxs c).id k l ∧ rest = _ := by simpa using h
      cases client_cs hstep with
      | sync f sd a hS => cases hS; exact .inl (.disp _ _ _ hact.1)
    · rw [hold] at h; cases h
    · simp [ht] at hterm'
    · rw [hold] at h; cases h
    · rw [hold] at h; cases h
    · simp [hexc] at hne
    · simp [hexc] at hne
    · rw [hold] at h; cases h
  | disp K l rest h =>
    obtain ⟨f, rest', hold, hcore⟩ := core h rfl rfl
    rw [hold] at h; cases h
    simp only [stepCore, if_neg hid, Option.some.injEq] at hcore
    subst hcore
    exact .inl (.look _ _ _ (stk_setStk' _ _ _))
  | look K l rest h =>
    obtain ⟨f, rest', hold, hcore⟩ := core h rfl rfl
    rw [hold] at h; cases h
    simp only [stepCore, if_neg hi0, hwf.find_of_mem hmem] at hcore
    split at hcore
    · contradiction
    obtain rfl := Option.some.inj hcore
    exact .inl (.push _ _ _ (stk_setStk' _ _ _))
  | push K l rest h =>
    obtain ⟨f, rest', hold, hcore⟩ := core h rfl rfl
    rw [hold] at h; cases h
    simp only [stepCore, halive, ne_eq, not_true_eq_false, if_false, Option.some.injEq] at hcore
    subst hcore
    right
    simp [St.setStk, St.ev, St.setCtx, Ctx.pend]

theorem step_tok {A : App α φ δ χ} {s s' : SSt α φ δ} {l : Lbl χ} (hs : Core.step (client A) s l = some s') {k : Nat}
    (h0 : s.data.sd.tok k = false) (h1 : s'.data.sd.tok k = true) :
    ∃ t ch K i r rest, l = .th t ch ∧ i ≠ 0 ∧ s.stk t = .client (.nLoop K ((i, k) :: r)) :: rest ∧ s'.stk t = .client (.nCall K i k r) :: rest ∧
      s'.data.sd.slog = .sig t k :: s.data.sd.slog := by
  cases l with
  | tick n => rw [step_tick _ s s' n hs] at h1; exact absurd (h0.symm.trans h1) (by simp)
  | th t ch =>
    rcases step_cl hs with ⟨f, rest, d', a, hexc, hold, hstep, hdata, hact, -⟩ | ⟨f, rest, hexc, hold, hcs, hdata, -⟩ | ⟨e, hexc, hst, -, -, hdata, -⟩ |
      ⟨e, f, k, rest, hexc, hold, hf, hst, hexc', hdata, -⟩ | ⟨e, f, rest, hexc, hold, hf, hst, -, hdata, -⟩ |
      ⟨e, g, g', rest, hexc, hold, hg, hst, hexc', hdata, -⟩ | ⟨e, g, rest, hexc, hold, hg, hst, -, hdata, -⟩ | ⟨hold, hst, hexc', hdata, -⟩
    · cases client_cs hstep with
      | app g ad sa hA => rw [hdata] at h1; exact absurd (h0.symm.trans h1) (by simp)
      | sync f sd a hS =>
        have hsd : s'.data.sd = sd := by rw [hdata]
        have same : sd.tok = s.data.sd.tok → False := by
          intro h; rw [hsd, h, h0] at h1; cases h1
        cases sem_eff hS with
        | quiet _ h _ _ => exact (same h).elim
        | rem _ _ _ _ _ _ h _ _ => exact (same h).elim
        | take _ _ _ _ _ _ h _ _ => exact (same h).elim
        | add _ _ _ _ h _ _ =>
          rw [hsd, h] at h1
          by_cases hk : k = s.data.sd.ntok
          · subst hk; simp at h1
          · simp [set_ne _ _ hk, h0] at h1
        | sig K i k' r hf hi _ h _ hl =>
          subst hf
          have hk : k = k' := by
            by_contra hk
            rw [hsd, h] at h1
            simp [set_ne _ _ hk, h0] at h1
          subst hk
          cases hS
          · exact absurd rfl hi
          · exact ⟨t, ch, K, i, r, rest, rfl, hi, hold, hact.1, by rw [hsd]; rfl⟩
    all_goals rw [hdata] at h1; exact absurd (h0.symm.trans h1) (by simp)

theorem Dlvr.move {s s' : SSt α φ δ} {v i k c : Nat} (h : s'.stk v = s.stk v) (hd : Dlvr s v i k c) : Dlvr s' v i k c := by
  cases hd with
  | call K l rest h1 => exact .call K l rest (h.trans h1)
  | disp K l rest h1 => exact .disp K l rest (h.trans h1)
  | look K l rest h1 => exact .look K l rest (h.trans h1)
  | push K l rest h1 => exact .push K l rest (h.trans h1)

theorem Dlvr.ne {s : SSt α φ δ} {v i k c : Nat} (hd : Dlvr s v i k c) : s.stk v ≠ [] := by
  cases hd with
  | call K l rest h1 => rw [h1]; simp
  | disp K l rest h1 => rw [h1]; simp
  | look K l rest h1 => rw [h1]; simp
  | push K l rest h1 => rw [h1]; simp

theorem Crit.move {s s' : SSt α φ δ} {v i k : Nat} {S : SemId} (h : s'.stk v = s.stk v) (hd : Crit s v S i k) : Crit s' v S i k := by
  cases hd with
  | top g rest h1 h2 h3 => exact .top g rest (h.trans h1) h2 h3
  | blk F g rest h1 h2 h3 => exact .blk F g rest (h.trans h1) h2 h3

theorem Crit.ne {s : SSt α φ δ} {v i k : Nat} {S : SemId} (hd : Crit s v S i k) : s.stk v ≠ [] := by
  cases hd with
  | top g rest h1 h2 h3 => rw [h1]; simp
  | blk F g rest h1 h2 h3 => rw [h1]; simp

theorem Crit.mem {s : SSt α φ δ} {v i k : Nat} {S : SemId} (hd : Crit s v S i k) : ∃ g, .client g ∈ s.stk v ∧ wtok g = some (S, i, k) := by
  cases hd with
  | top g rest h1 h2 h3 => exact ⟨g, by rw [h1]; simp, h3⟩
  | blk F g rest h1 h2 h3 => exact ⟨g, by rw [h1]; simp, h3⟩

/-- **A signalled waiter has its wake-up or somebody is bringing it.** -/
theorem deliver {A : App α φ δ χ} {ad : δ} {f0 : φ} {s : SSt α φ δ} (hr : SR A ad f0 s) (hterm : s.term = false) {u c k i : Nat} {S : SemId}
    (hc : Crit s u S i k) (hloc : s.loc u = some c) (hreg : InReg s c) (hid : (s.ctxs c).id = i) (htok : s.data.sd.tok k = true) :
    ((s.ctxs c).pend ≠ [] ∨ (s.ctxs c).exit = true) ∨ ∃ v, u ≠ v ∧ Dlvr s v i k c := by
  have key : s.term = false → ∀ u c k i S, Crit s u S i k → s.loc u = some c → InReg s c → (s.ctxs c).id = i → s.data.sd.tok k = true →
      ((s.ctxs c).pend ≠ [] ∨ (s.ctxs c).exit = true) ∨ ∃ v, u ≠ v ∧ Dlvr s v i k c := by
    refine Reach.induct (fun s : SSt α φ δ => s.term = false → ∀ u c k i S, Crit s u S i k → s.loc u = some c → InReg s c → (s.ctxs c).id = i →
      s.data.sd.tok k = true → ((s.ctxs c).pend ≠ [] ∨ (s.ctxs c).exit = true) ∨ ∃ v, u ≠ v ∧ Dlvr s v i k c) ?_ ?_ hr
    · intro _ u c k i S _ _ _ _ h
      simp [Core.init] at h
    · intro s l s' hr ih hs hterm' u c k i S hc hloc hreg hid htok
      have hterm := step_live hs
      cases l with
      | tick n =>
        have h := step_tick _ s s' n hs
        rw [h] at hloc hreg hid htok ⊢
        rcases ih hterm u c k i S (hc.move (by rw [h]; rfl)) hloc hreg hid htok with h1 | ⟨v, h1, h2⟩
        · exact .inl h1
        · exact .inr ⟨v, h1, Dlvr.move (s := s) rfl h2⟩
      | th t ch =>
        have he := step_eff (client A) s s' t ch hs
        by_cases hut : u = t
        · subst hut
          rcases crit_own hr hs hterm' hc with h | ⟨h1, h2, h3, h4, h5⟩
          · rw [h] at htok; cases htok
          · rcases ih hterm u c k i S h1 (h3 ▸ hloc) (by simpa only [InReg, h4] using hreg) ((h5 c).2.2 ▸ hid) (h2 ▸ htok) with h | ⟨v, h6, h7⟩
            · left; rw [(h5 c).1, (h5 c).2.1]; exact h
            · exact .inr ⟨v, h6, h7.move (still hr h7.ne hs (fun ch h => h6 (by cases h; rfl))).1⟩
        · have hu0 : s.stk u ≠ [] := by
            intro h0
            rcases hr.stk_oth hut hs with ⟨h1, -⟩ | ⟨f, rest, h1, -, -, h2, -⟩
            · exact hc.ne (h1.trans h0)
            · have h3 := (codes hr).code t (.spawnIn u f) (by rw [h1]; simp) u
              exact triv_crit h3 (hc.cl h2).1
          obtain ⟨hst, -, -, hl, -⟩ := still hr hu0 hs (fun ch h => hut (by cases h; rfl))
          have hloc0 : s.loc u = some c := hl.symm.trans hloc
          have hwf := WF.reach hr
          have hlt := (hwf.loc u c hloc0).1
          have hreg0 := inReg_back he hlt hreg
          have hid0 : (s.ctxs c).id = i := (same_id he c hlt).2.symm.trans hid
          have hc0 := hc.move hst.symm
          by_cases hk : s.data.sd.tok k = true
          · rcases ih hterm u c k i S hc0 hloc0 hreg0 hid0 hk with h | ⟨v, h6, h7⟩
            · exact .inl ((pend_keep hwf he hut hloc0 hreg0).2 h)
            · by_cases hv : v = t
              · subst hv
                subst hid0
                rcases dlvr_own hr hs hterm' h6 hloc0 hreg0 h7 with h | h
                · exact .inr ⟨v, h6, h⟩
                · exact .inl (.inl h)
              · exact .inr ⟨v, h6, h7.move (still hr h7.ne hs (fun ch h => hv (by cases h; rfl))).1⟩
          · simp only [Bool.not_eq_true] at hk
            obtain ⟨t', ch', K, j, r, rest, h1, h2, h3, h4, h5⟩ := step_tok hs hk htok
            cases h1
            have hj : j = i := by
              obtain ⟨g, hg, hw⟩ := hc0.mem
              obtain ⟨x, hx⟩ := (sem_F hr hg).wt _ _ _ hw
              obtain ⟨S', l', hl', hm⟩ := (sem_F hr (t := t) (f := .nLoop K ((j, k) :: r)) (by rw [h3]; simp)).td (j, k) (by simp [todo])
              obtain ⟨y, hy⟩ := (sem_I hr).tookEnt hl' hm
              exact ((sem_I hr).entUq hy hx).2.2
            subst hj
            exact .inr ⟨t, hut, .call _ _ _ h4⟩
  exact key hterm u c k i S hc hloc hreg hid htok
end
end Sync
end Itc
