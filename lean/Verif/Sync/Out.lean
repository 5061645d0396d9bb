import Verif.Sync.Mv

/-!
# The outcome of a packaged task (proof infrastructure, no claims)
-/
namespace Itc
namespace Sync
open Core
section
variable {α φ δ χ : Type} {A : App α φ δ χ} {ad : δ} {i0 : φ} {s s' : SSt α φ δ}

/-- Frames to which setting state `p` returns. -/
def afterSet (p : Nat) : SFrame α φ → Prop
  | .ftDone q => q = p
  | .ftEnd q => q = p
  | .ftFin q => q = p
  | .pdEnd q => q = p
  | .poEnd _ q => q = p
  | _ => False

theorem setFam_nt {p : Nat} {f : SFrame α φ} (h : setFam p f) : nt (α := α) (.client f) := by
  cases f <;> first | trivial | exact h.elim

theorem afterSet_below {p : Nat} {l : SFrame α φ} {u : Fr α φ} (h : afterSet p l) (ha : Adj (α := α) (.client l) u) : ∃ f, u = .client f ∧ setFam p f := by
  cases l <;> first
    | exact h.elim
    | (cases u with
       | core f => exact False.elim ha
       | client f => subst h; exact ⟨f, rfl, ha⟩)
    | exact False.elim ha

theorem triv_not_after {p : Nat} {g : SFrame α φ} (h : trivF g) : ¬ afterSet p g := by
  intro h'; cases g <;> first | exact h'.elim | exact h.elim

theorem app_not_set {p : Nat} {g : φ} (h : setFam p (.app g : SFrame α φ)) : False := h

theorem ret_set {run destroy : α → φ} {v : View} {d d' : SData α} {rv : Val} {f : SFrame α φ} {p : Nat} {w : Val}
    (hS : SS run destroy v d rv f d' (.ret w)) (h : setFam p f) : f = .srDtor p [] := by
  generalize hx : (.ret w : Act (STask α) (SFrame α φ)) = a at hS
  cases hS <;> first | exact False.elim h | (cases hx; done) | skip
  case srDend => rw [show _ = p from h]
  case laRet K c => cases K <;> first | exact False.elim h | (simp [laNext] at hx; done)
  case laEnd K c => cases K <;> first | exact False.elim h | (simp [laNext] at hx; done)

theorem throw_set {run destroy : α → φ} {v : View} {d d' : SData α} {rv : Val} {f : SFrame α φ} {p : Nat} {e : Exn}
    (hS : SS run destroy v d rv f d' (.throw e)) (h : setFam p f) : d.ready p = true ∧ ∃ r, f = .svChk p r := by
  generalize hx : (.throw e : Act (STask α) (SFrame α φ)) = a at hS
  cases hS <;> first | exact False.elim h | (cases hx; done) | skip
  case svBad q r hq => obtain rfl : q = p := h; exact ⟨hq, r, rfl⟩
  case laRet K c => cases K <;> first | exact False.elim h | (simp [laNext] at hx; done)
  case laEnd K c => cases K <;> first | exact False.elim h | (simp [laNext] at hx; done)

theorem to_after {run destroy : α → φ} {v : View} {d d' : SData α} {rv : Val} {f g : SFrame α φ} {a : Act (STask α) (SFrame α φ)} {p : Nat}
    (hS : SS run destroy v d rv f d' a) (h : afterSet p g) : a ≠ .goto g ∧ ∀ k, a ≠ .push g k := by
  refine ⟨?_, ?_⟩
  · rintro rfl
    generalize hx : (.goto g : Act (STask α) (SFrame α φ)) = a at hS
    cases hS <;> first
      | (cases hx; done)
      | (cases hx; exact False.elim h)
      | skip
    case laRet K c => cases K <;> simp only [laNext] at hx <;> (try split at hx) <;> first | (cases hx; done) | (cases hx; exact False.elim h)
    case laEnd K c => cases K <;> simp only [laNext] at hx <;> (try split at hx) <;> first | (cases hx; done) | (cases hx; exact False.elim h)
  · rintro k rfl
    generalize hx : (.push g k : Act (STask α) (SFrame α φ)) = a at hS
    cases hS <;> first
      | (cases hx; done)
      | (cases hx; exact False.elim h)
      | skip
    case laRet K c => cases K <;> simp only [laNext] at hx <;> (try split at hx) <;> first | (cases hx; done) | (cases hx; exact False.elim h)
    case laEnd K c => cases K <;> simp only [laNext] at hx <;> (try split at hx) <;> first | (cases hx; done) | (cases hx; exact False.elim h)

/-- When control is back at such a frame, the state is ready, whether the setter returned or threw. -/
theorem topReady (hr : SR A ad i0 s) : ∀ t g rest p, s.stk t = .client g :: rest → afterSet p g → rdy s.data.sd p := by
  refine Reach.induct (fun s => ∀ t g rest p, s.stk t = .client g :: rest → afterSet p g → rdy s.data.sd p) ?_ ?_ hr
  · intro t g rest p hst h
    by_cases ht : t = 0
    · subst ht; simp [Core.init, St.stk] at hst; rw [← hst.1] at h; exact h.elim
    · simp [Core.init, St.stk, upd_ne _ _ ht] at hst
  · intro s l s' hr q hs
    have hext := step_ext hs
    cases l with
    | tick n => rw [step_tick _ s s' n hs]; exact q
    | th t ch =>
      intro u g r p hst h
      by_cases hu : u = t
      · subst hu
        have hch := (stk_ok hr).chain u
        have hty : ∀ f, .client f ∈ s.stk u → T1F s.data.sd f := fun f hf => ty1_F hr hf
        -- a frame popped by returning or throwing
        have popd : ∀ x rest, s.stk u = x :: rest → rest = .client g :: r → ∃ f, x = .client f ∧ setFam p f := by
          intro x rest h1 h2
          rw [h1, h2] at hch
          exact afterSet_below h hch.1
        cases mv hr hs with
        | sync f rest a he hst0 hS hact =>
          cases a with
          | goto f' => rw [hact.1] at hst; cases hst; exact absurd rfl (to_after hS h).1
          | push f' k => rw [hact.1] at hst; cases hst; exact absurd rfl ((to_after hS h).2 _)
          | call b k => rw [hact.1] at hst; cases hst
          | ret v =>
            rw [hact.1] at hst
            obtain ⟨f1, h1, hf⟩ := popd _ _ hst0 hst
            cases h1
            have := ret_set hS hf
            subst this
            exact rdy_mono hext (show rdy _ _ ∧ koks _ _ from hty (.srDtor p []) (by rw [hst0]; simp)).1
          | throw v =>
            rw [hact.1] at hst
            obtain ⟨f1, h1, hf⟩ := popd _ _ hst0 hst
            cases h1
            obtain ⟨h1, r', rfl⟩ := throw_set hS hf
            have hlt : p < s.data.sd.nst := hty (.svChk p r') (by rw [hst0]; simp)
            exact rdy_mono hext ⟨hlt, h1⟩
          | terminate => rw [hact.1] at hst; exact rdy_mono hext (q u g r p hst h)
        | app x rest a he hst0 hd hact =>
          cases a <;> simp only [liftAct, ActTo] at hact <;> rw [hact.1] at hst
          · cases hst; exact h.elim
          · cases hst; exact h.elim
          · cases hst
          · rename_i a _ _; cases a <;> cases hst <;> exact h.elim
          · obtain ⟨f1, h1, hf⟩ := popd _ _ hst0 hst; cases h1; exact hf.elim
          · obtain ⟨f1, h1, hf⟩ := popd _ _ hst0 hst; cases h1; exact hf.elim
          · exact rdy_mono hext (q u g r p hst h)
        | hand e f f' rest he hst0 hn hf hst' he' hd =>
          rw [hst'] at hst
          cases hst
          have : afterSet p f := by
            cases f <;> simp only [sThrow, Option.some.injEq, Option.map_eq_some_iff, reduceCtorEq] at hf <;>
              first | (subst hf; exact h) | (obtain ⟨x, -, rfl⟩ := hf; exact h.elim)
          exact rdy_mono hext (q u f _ p hst0 this)
        | drop e f rest he hst0 hn hf hst' he' hd =>
          rw [hst'] at hst
          obtain ⟨f1, h1, hf⟩ := popd _ _ hst0 hst
          cases h1
          exact absurd (setFam_nt hf) hn
        | core f rest pre hst0 hpre hst' hd =>
          rw [hst'] at hst
          cases pre with
          | nil => obtain ⟨f1, h1, hf⟩ := popd _ _ hst0 hst; cases h1
          | cons x pre =>
            cases hst
            exact absurd h (triv_not_after (hpre g (by simp)))
        | still hst' he' hd => rw [hst'] at hst; exact rdy_mono hext (q u g r p hst h)
      · rcases mv_oth hr hs hu with ⟨h1, -⟩ | ⟨h0, g', h1, hg'⟩
        · rw [h1] at hst; exact rdy_mono hext (q u g r p hst h)
        · rw [h1] at hst; cases hst; exact absurd h (triv_not_after hg')


/-! ## Events of calls -/

/-- A call of the packaged task `p` that has begun. -/
def runP (p : Nat) : SFrame α φ → Prop
  | .ftSet q => q = p
  | .ftDone q => q = p
  | .ftThrew q _ => q = p
  | .ftExc q _ => q = p
  | .ftEnd q => q = p
  | .ftFin q => q = p
  | _ => False

structure T5I (d : SData α) : Prop where
  ret : ∀ t p v, .bodyRet t p v ∈ d.slog → .bodyStart t p ∈ d.slog
  threw : ∀ t p e, .bodyThrew t p e ∈ d.slog → .bodyStart t p ∈ d.slog
  lt : ∀ t p, .bodyStart t p ∈ d.slog → p < d.nst

def T5F (d : SData α) (t : Nat) : SFrame α φ → Prop
  | .ftSet p => .bodyStart t p ∈ d.slog
  | .ftDone p => .bodyStart t p ∈ d.slog ∧ ∃ v, .bodyRet t p v ∈ d.slog
  | .ftThrew p _ => .bodyStart t p ∈ d.slog
  | .ftExc p e => .bodyStart t p ∈ d.slog ∧ (.bodyThrew t p e ∈ d.slog ∨ rdy d p)
  | .ftEnd p => .bodyStart t p ∈ d.slog
  | .ftFin p => .bodyStart t p ∈ d.slog
  | _ => True

theorem T5F_mono {d d' : SData α} (h : Ext d d') {t : Nat} {f : SFrame α φ} (hf : T5F d t f) : T5F d' t f := by
  cases f <;> first
    | trivial
    | exact h.mem hf
    | exact ⟨h.mem hf.1, hf.2.imp fun _ => h.mem⟩
    | exact ⟨h.mem hf.1, hf.2.imp h.mem (rdy_mono h)⟩

def callE : SEv → Prop
  | .bodyStart _ _ => True
  | .bodyRet _ _ _ => True
  | .bodyThrew _ _ _ => True
  | _ => False

def callF : SFrame α φ → Prop
  | .ftRun _ _ => True
  | .ftSet _ => True
  | .ftThrew _ _ => True
  | _ => False

/-- Only three frames record events of calls. -/
theorem call_log {run destroy : α → φ} {v : View} {d d' : SData α} {rv : Val} {f : SFrame α φ} {a : Act (STask α) (SFrame α φ)}
    (hS : SS run destroy v d rv f d' a) (hf : ¬ callF f) {e : SEv} (he : callE e) : e ∈ d'.slog ↔ e ∈ d.slog := by
  cases hS <;> first
    | exact absurd trivial hf
    | exact Iff.rfl
    | (refine ⟨fun h => ?_, fun h => List.mem_cons_of_mem _ h⟩
       rcases List.mem_cons.1 h with h | h
       · subst h; exact he.elim
       · exact h)
    | (unfold SData.addWaiter
       split
       · exact Iff.rfl
       · refine ⟨fun h => ?_, fun h => List.mem_cons_of_mem _ h⟩
         rcases List.mem_cons.1 h with h | h
         · subst h; exact he.elim
         · exact h)
    | (rw [relLk_slog])

theorem T5_laNext {d : SData α} {K : LK α} {c : Kont α} {b : Bool} {t : Nat} :
    ActOK (T5F (φ := φ) d) (fun _ => True) t (laNext K c b) := by
  cases K <;> cases b <;> simp [laNext, ActOK, T5F]

def ty5 (A : App α φ δ χ) (ad : δ) (i0 : φ) : STy A (SR A ad i0) where
  I := T5I
  PF := T5F
  PT _ _ := True
  app := trivial
  entry := by intro d t a; cases a <;> trivial
  tapp := trivial
  step := by
    intro s t f rest d' a hr he hst hi hf hS
    have hx := hS.ext
    refine ⟨?_, fun _ _ => T5F_mono hx, fun _ h => h, ?_⟩
    · by_cases hc : callF f
      · cases hS <;> first | exact hc.elim | skip
        case ftRun p a =>
          have hlt : p < s.data.sd.nst := (show tkOk _ _ from ty1_F hr (g := .ftRun p a) (t := t) (by rw [hst]; simp)).1
          refine ⟨?_, ?_, ?_⟩
          · intro u q w h; simp [SData.ev] at h ⊢; exact .inr (hi.ret _ _ _ h)
          · intro u q w h; simp [SData.ev] at h ⊢; exact .inr (hi.threw _ _ _ h)
          · intro u q h; simp [SData.ev] at h ⊢; rcases h with ⟨-, rfl⟩ | h
            · exact hlt
            · exact hi.lt _ _ h
        case ftSet p =>
          refine ⟨?_, ?_, ?_⟩
          · intro u q w h; simp [SData.ev] at h ⊢
            rcases h with ⟨rfl, rfl, -⟩ | h
            · exact hf
            · exact hi.ret _ _ _ h
          · intro u q w h; simp [SData.ev] at h ⊢; exact hi.threw _ _ _ h
          · intro u q h; simp [SData.ev] at h ⊢; exact hi.lt _ _ h
        case ftThrew p e =>
          refine ⟨?_, ?_, ?_⟩
          · intro u q w h; simp [SData.ev] at h ⊢; exact hi.ret _ _ _ h
          · intro u q w h; simp [SData.ev] at h ⊢
            rcases h with ⟨rfl, rfl, -⟩ | h
            · exact hf
            · exact hi.threw _ _ _ h
          · intro u q h; simp [SData.ev] at h ⊢; exact hi.lt _ _ h
      · refine ⟨?_, ?_, ?_⟩
        · intro u q w h; exact (call_log hS hc (e := .bodyStart u q) trivial).2 (hi.ret _ _ _ ((call_log hS hc (e := .bodyRet u q w) trivial).1 h))
        · intro u q w h; exact (call_log hS hc (e := .bodyStart u q) trivial).2 (hi.threw _ _ _ ((call_log hS hc (e := .bodyThrew u q w) trivial).1 h))
        · intro u q h; exact lt_mono hx (hi.lt _ _ ((call_log hS hc (e := .bodyStart u q) trivial).1 h))
    · cases hS <;> first
        | exact T5_laNext
        | (simp only [ActOK, T5F, ApiOK, and_self]; done)
        | skip
      case ftRun p a => exact ⟨trivial, List.mem_cons_self⟩
      case ftSet p => exact ⟨trivial, List.mem_cons_of_mem _ hf, _, List.mem_cons_self⟩
      case ftThrew p e => exact ⟨List.mem_cons_of_mem _ hf, .inl List.mem_cons_self⟩
      case ftExc p e => exact ⟨trivial, hf.1⟩
  done := trivial
  task _ _ := ⟨trivial, trivial⟩
  throw := by
    intro s t f rest e f' hr hst he hf hn h
    cases f <;> simp only [sThrow, Option.some.injEq, Option.map_eq_some_iff, reduceCtorEq] at h <;>
      first | (subst h; trivial) | (obtain ⟨x, -, rfl⟩ := h; trivial) | (subst h; exact hf) | skip
    case ftDone p => subst h; exact ⟨hf.1, .inr (topReady hr t _ _ p hst rfl)⟩

theorem ty5_ok (h : SR A ad i0 s) : (ty5 A ad i0).ty.Ok s :=
  (ty5 A ad i0).sound ⟨by simp, by simp, by simp⟩ h

theorem ty5_I (h : SR A ad i0 s) : T5I s.data.sd := (ty5_ok h).data

theorem ty5_F (h : SR A ad i0 s) {t : Nat} {g : SFrame α φ} (hg : .client g ∈ s.stk t) : T5F s.data.sd t g := (ty5_ok h).fr t _ hg

theorem runP_start (h : SR A ad i0 s) {t p : Nat} {g : SFrame α φ} (hg : .client g ∈ s.stk t) (hp : runP p g) : .bodyStart t p ∈ s.data.sd.slog := by
  have := ty5_F h hg
  cases g <;> first | exact hp.elim | skip
  all_goals (obtain rfl := show _ = p from hp; first | exact this | exact this.1)


/-! ## What a set of a packaged task's state sets -/

/-- Setting state `p` to `r`, up to the point where it becomes ready. -/
def svr (p : Nat) (r : Res) : SFrame α φ → Prop
  | .svIn q r' => q = p ∧ r' = r
  | .svChk q r' => q = p ∧ r' = r
  | .srSet q r' => q = p ∧ r' = r
  | _ => False

/-- On whose behalf thread `t` sets the state of packaged task `p` to `r`. -/
def Below (d : SData α) (t p : Nat) (r : Res) (rest : List (Fr α φ)) : Prop :=
  (∃ rest' v, rest = .client (.ftDone p) :: rest' ∧ r = .val v ∧ .bodyRet t p v ∈ d.slog) ∨
  (∃ rest' e, rest = .client (.ftEnd p) :: rest' ∧ r = .exn e ∧ (.bodyThrew t p e ∈ d.slog ∨ rdy d p)) ∨
  (∃ rest', rest = .client (.pdEnd p) :: rest' ∧ r = .exn .brokenPromise)

theorem Below.mono {d d' : SData α} (h : Ext d d') {t p : Nat} {r : Res} {rest : List (Fr α φ)} (hb : Below d t p r rest) : Below d' t p r rest := by
  rcases hb with ⟨a, b, h1, h2, h3⟩ | ⟨a, b, h1, h2, h3⟩ | ⟨a, h1, h2⟩
  · exact .inl ⟨a, b, h1, h2, h.mem h3⟩
  · exact .inr (.inl ⟨a, b, h1, h2, h3.imp h.mem (rdy_mono h)⟩)
  · exact .inr (.inr ⟨a, h1, h2⟩)

theorem triv_not_svr {p : Nat} {r : Res} {g : SFrame α φ} (h : trivF g) : ¬ svr p r g := by
  intro h'; cases g <;> first | exact h'.elim | exact h.elim

theorem above_svr {p : Nat} {r : Res} {l : SFrame α φ} {u : Fr α φ} (h : svr p r l) (ha : Adj (α := α) (.client l) u) : False := by
  cases l <;> first | exact h.elim | exact ha

theorem svr_lt (hr : SR A ad i0 s) {t p : Nat} {r : Res} {g : SFrame α φ} (hg : .client g ∈ s.stk t) (h : svr p r g) : p < s.data.sd.nst := by
  have := ty1_F hr hg
  cases g <;> first | exact h.elim | (obtain ⟨rfl, rfl⟩ := h; exact this)

/-- Where a frame that sets a state comes from. -/
theorem to_svr {run destroy : α → φ} {v : View} {d d' : SData α} {rv : Val} {f g : SFrame α φ} {a : Act (STask α) (SFrame α φ)} {p : Nat} {r : Res}
    (hS : SS run destroy v d rv f d' a) (h : svr p r g) :
    (a = .goto g → svr p r f ∨ ∃ q, d.obj q = some p ∧ f = .poSet q r) ∧
    (∀ k, a = .push g k → g = .svIn p r ∧
      ((f = .ftSet p ∧ k = .ftDone p ∧ r = .val rv ∧ d'.slog = .bodyRet v.tid p rv :: d.slog) ∨ (∃ e, f = .ftExc p e ∧ k = .ftEnd p ∧ r = .exn e ∧ d' = d) ∨
      (f = .pdIn p ∧ k = .pdEnd p ∧ r = .exn .brokenPromise ∧ d.ready p = false ∧ d' = d) ∨ ∃ q, d.obj q = some p ∧ f = .poDtor q)) ∧
    (∀ k, a = .push k g → False) ∧ ∀ b, a = .call b g → False := by
  refine ⟨?_, ?_, ?_, ?_⟩
  · rintro rfl
    generalize hx : (.goto g : Act (STask α) (SFrame α φ)) = a at hS
    cases hS <;> first
      | (cases hx; done)
      | (cases hx; exact False.elim h)
      | (cases hx; exact .inl h)
      | skip
    case laRet K c => cases K <;> simp only [laNext] at hx <;> (try split at hx) <;> first | (cases hx; done) | (cases hx; exact False.elim h)
    case laEnd K c => cases K <;> simp only [laNext] at hx <;> (try split at hx) <;> first | (cases hx; done) | (cases hx; exact False.elim h)
    case poSet q r' p' hq => cases hx; obtain ⟨rfl, rfl⟩ := h; exact .inr ⟨q, hq, rfl⟩
  · rintro k rfl
    generalize hx : (.push g k : Act (STask α) (SFrame α φ)) = a at hS
    cases hS <;> first
      | (cases hx; done)
      | (cases hx; exact False.elim h)
      | skip
    case laRet K c => cases K <;> simp only [laNext] at hx <;> (try split at hx) <;> first | (cases hx; done) | (cases hx; exact False.elim h)
    case laEnd K c => cases K <;> simp only [laNext] at hx <;> (try split at hx) <;> first | (cases hx; done) | (cases hx; exact False.elim h)
    case ftSet q => cases hx; obtain ⟨rfl, rfl⟩ := h; exact ⟨rfl, .inl ⟨rfl, rfl, rfl, rfl⟩⟩
    case ftExc q e => cases hx; obtain ⟨rfl, rfl⟩ := h; exact ⟨rfl, .inr (.inl ⟨e, rfl, rfl, rfl, rfl⟩)⟩
    case pdBreak q hq => cases hx; obtain ⟨rfl, rfl⟩ := h; exact ⟨rfl, .inr (.inr (.inl ⟨rfl, rfl, rfl, hq, rfl⟩))⟩
    case poDbreak q p' hq _ => cases hx; obtain ⟨rfl, rfl⟩ := h; exact ⟨rfl, .inr (.inr (.inr ⟨q, hq, rfl⟩))⟩
  · rintro k rfl
    generalize hx : (.push k g : Act (STask α) (SFrame α φ)) = a at hS
    cases hS <;> first
      | (cases hx; done)
      | (cases hx; exact False.elim h)
      | skip
    case laRet K c => cases K <;> simp only [laNext] at hx <;> (try split at hx) <;> first | (cases hx; done) | (cases hx; exact False.elim h)
    case laEnd K c => cases K <;> simp only [laNext] at hx <;> (try split at hx) <;> first | (cases hx; done) | (cases hx; exact False.elim h)
  · rintro k rfl
    generalize hx : (.call k g : Act (STask α) (SFrame α φ)) = a at hS
    cases hS <;> first
      | (cases hx; done)
      | (cases hx; exact False.elim h)
      | skip
    case laRet K c => exact (laNext_call hx.symm).elim
    case laEnd K c => exact (laNext_call hx.symm).elim

theorem below (hr : SR A ad i0 s) : ∀ t g rest p r, s.stk t = .client g :: rest → svr p r g → tkOk s.data.sd p → Below s.data.sd t p r rest := by
  refine Reach.induct (fun s => ∀ t g rest p r, s.stk t = .client g :: rest → svr p r g → tkOk s.data.sd p → Below s.data.sd t p r rest) ?_ ?_ hr
  · intro t g rest p r hst h
    by_cases ht : t = 0
    · subst ht; simp [Core.init, St.stk] at hst; rw [← hst.1] at h; exact h.elim
    · simp [Core.init, St.stk, upd_ne _ _ ht] at hst
  · intro s l s' hr q hs
    have hext := step_ext hs
    cases l with
    | tick n => rw [step_tick _ s s' n hs]; exact q
    | th t ch =>
      intro u g rst p r hst h hp
      have old : s.stk u = .client g :: rst → Below s'.data.sd u p r rst := by
        intro h1
        have hlt := svr_lt hr (t := u) (g := g) (by rw [h1]; simp) h
        exact (q u g rst p r h1 h ⟨hlt, by rw [← hext.owner hlt]; exact hp.2⟩).mono hext
      by_cases hu : u = t
      · subst hu
        have hch := (stk_ok hr).chain u
        have popd : ∀ x rest, s.stk u = x :: rest → rest = .client g :: rst → False := by
          intro x rest h1 h2
          rw [h1, h2] at hch
          exact above_svr h hch.1
        have usr : ∀ q, s.data.sd.obj q = some p → False := by
          intro q hq
          have := (ty1_I hr).obj q p hq
          exact hp.2 (by rw [hext.owner this.1]; exact this.2)
        cases mv hr hs with
        | sync f rest a he hst0 hS hact =>
          have hmem : .client f ∈ s.stk u := by rw [hst0]; simp
          cases a with
          | goto f' =>
            rw [hact.1] at hst; cases hst
            rcases (to_svr hS h).1 rfl with h1 | ⟨q', hq, -⟩
            · have hlt := svr_lt hr hmem h1
              exact (q u f rst p r hst0 h1 ⟨hlt, by rw [← hext.owner hlt]; exact hp.2⟩).mono hext
            · exact (usr _ hq).elim
          | push f' k =>
            rw [hact.1] at hst; cases hst
            rcases ((to_svr hS h).2.1 k rfl).2 with ⟨rfl, rfl, rfl, h2⟩ | ⟨e, rfl, rfl, rfl, h2⟩ | ⟨rfl, rfl, rfl, h1, h2⟩ | ⟨q', hq, -⟩
            · exact .inl ⟨_, _, rfl, rfl, by rw [h2]; exact List.mem_cons_self⟩
            · exact .inr (.inl ⟨_, _, rfl, rfl, by rw [h2]; exact (ty5_F hr hmem).2⟩)
            · exact .inr (.inr ⟨_, rfl, rfl⟩)
            · exact (usr _ hq).elim
          | call b k => rw [hact.1] at hst; cases hst
          | ret v => rw [hact.1] at hst; exact (popd _ _ hst0 hst).elim
          | throw v => rw [hact.1] at hst; exact (popd _ _ hst0 hst).elim
          | terminate => rw [hact.1] at hst; exact old hst
        | app x rest a he hst0 hd hact =>
          cases a <;> simp only [liftAct, ActTo] at hact <;> rw [hact.1] at hst
          · cases hst; exact h.elim
          · cases hst; exact h.elim
          · cases hst
          · rename_i a _ _; cases a <;> cases hst <;> exact h.elim
          · exact (popd _ _ hst0 hst).elim
          · exact (popd _ _ hst0 hst).elim
          · exact old hst
        | hand e f f' rest he hst0 hn hf hst' he' hd =>
          rw [hst'] at hst
          cases hst
          cases f <;> simp only [sThrow, Option.some.injEq, Option.map_eq_some_iff, reduceCtorEq] at hf <;>
              first | (subst hf; exact h.elim) | (obtain ⟨x, -, rfl⟩ := hf; exact h.elim)
        | drop e f rest he hst0 hn hf hst' he' hd =>
          rw [hst'] at hst
          exact (popd _ _ hst0 hst).elim
        | core f rest pre hst0 hpre hst' hd =>
          rw [hst'] at hst
          cases pre with
          | nil => exact (popd _ _ hst0 hst).elim
          | cons x pre =>
            cases hst
            exact absurd h (triv_not_svr (hpre g (by simp)))
        | still hst' he' hd => rw [hst'] at hst; exact old hst
      · rcases mv_oth hr hs hu with ⟨h1, -⟩ | ⟨h0, g', h1, hg'⟩
        · rw [h1] at hst; exact old hst
        · rw [h1] at hst; cases hst; exact absurd h (triv_not_svr hg')


/-! ## Exclusion between calls and destructors -/

theorem lsum_mem2 {β : Type} {w : β → Nat} : ∀ {l : List β} {x y : β}, x ∈ l → y ∈ l → x ≠ y → w x + w y ≤ lsum w l
  | [], _, _, h, _, _ => by simp at h
  | z :: l, x, y, hx, hy, hne => by
    rw [lsum_cons]
    rcases List.mem_cons.1 hx with hx' | hx'
    · subst hx'
      rcases List.mem_cons.1 hy with hy' | hy'
      · exact absurd hy'.symm hne
      · have := lsum_mem (w := w) hy'; omega
    · rcases List.mem_cons.1 hy with hy' | hy'
      · subst hy'; have := lsum_mem (w := w) hx'; omega
      · have := lsum_mem2 (w := w) hx' hy' hne; omega

/-- At most one activation of a packaged task or its destructor. -/
theorem uniqR (hr : SR A ad i0 s) {p t u : Nat} (hp : Pkg s.data.sd p) {f g : SFrame α φ} (hf : .client f ∈ s.stk t) (hg : .client g ∈ s.stk u)
    (h1 : 1 ≤ fw .R p f) (h2 : 1 ≤ fw .R p g) : t = u ∧ f = g := by
  have hinn := inn_pkg hr (T := .R) hp
  have htu : t = u := by
    by_contra hne
    have h := (lin_ok hr .R p).le2 hne
    have ha := mem_thw (T := .R) (p := p) hf
    have hb := mem_thw (T := .R) (p := p) hg
    have hinn' : (lin A ad i0 .R p).inn s.data = 1 := hinn
    have ha' : fw .R p f ≤ thw (lin A ad i0 .R p).toWts s t := ha
    have hb' : fw .R p g ≤ thw (lin A ad i0 .R p).toWts s u := hb
    omega
  subst htu
  refine ⟨rfl, ?_⟩
  by_contra hne
  have h := acc_le hr .R p t
  have h3 := losum_thw .R p s t
  have h4 := lsum_mem2 (w := Frame.lo (wts δ φ .R p)) hf hg (fun h => hne (Frame.client.inj h))
  have h5 : fw .R p f + fw .R p g ≤ losum (wts δ φ .R p) (s.stk t) := h4
  omega

theorem R_dropped (hr : SR A ad i0 s) {p t u : Nat} (hp : Pkg s.data.sd p) {f : SFrame α φ} (hf : .client f ∈ s.stk t)
    (h1 : 1 ≤ fw .R p f) : .dropped u p ∉ s.data.sd.slog := by
  intro h
  have hinn := inn_pkg hr (T := .R) hp
  have h2 := acc_le hr .R p t
  have h3 := mem_thw (T := .R) (p := p) hf
  have h4 := lsum_mem (w := evO .R p) h
  have h5 : lsum (evO .R p) s.data.sd.slog ≤ (wts δ φ .R p).out s.data := Nat.le_add_left _ _
  simp only [evO, b1, if_true] at h4
  omega

theorem U_start (hr : SR A ad i0 s) {p t u : Nat} (hp : Pkg s.data.sd p) {a : α} (hf : .client (.ftRun p a) ∈ s.stk t) :
    .bodyStart u p ∉ s.data.sd.slog := by
  intro h
  have hinn := inn_pkg hr (T := .U) hp
  have h2 := acc_le hr .U p t
  have h3 := mem_thw (T := .U) (p := p) hf
  have h4 := lsum_mem (w := evO .U p) h
  have h5 : lsum (evO .U p) s.data.sd.slog ≤ (wts δ φ .U p).out s.data := Nat.le_add_left _ _
  simp only [evO, b1, if_true, fw, Tab.run0] at h4 h3
  omega

theorem runP_fw {p : Nat} {g : SFrame α φ} (h : runP p g) : 1 ≤ fw .R p g := by
  cases g <;> first | exact h.elim | (obtain rfl := show _ = p from h; simp [fw, Tab.run1, b1])

/-- A state becomes ready only by the last step of setting it. -/
theorem ready_new (hr : SR A ad i0 s) {t p : Nat} {ch : Ch χ} (hs : Core.step (client A) s (.th t ch) = some s') (h : s'.data.sd.ready p = true) :
    s.data.sd.ready p = true ∨ ∃ r rest, s.stk t = .client (.srSet p r) :: rest ∧ s'.data.sd.slog = .sat t p r :: s.data.sd.slog ∧
      s'.stk t = .client (.naIn (.fut p (s.data.sd.st p).cbs)) :: rest ∧ s.data.sd.ready p = false := by
  by_cases h0 : s.data.sd.ready p = true
  · exact .inl h0
  have h0' : s.data.sd.ready p = false := by simpa using h0
  right
  cases mv hr hs with
  | sync f rest a he hst hS hact =>
    by_cases hsp : special f
    · generalize hd : s'.data.sd = d' at hS h ⊢
      cases hS <;> first | exact hsp.elim | skip
      case svBad q r hq => exact absurd h h0
      case svVal q w hq =>
        by_cases hpq : p = q
        · subst hpq; simp [SData.ready, SData.setSt, set_same] at h h0; exact absurd h0 h
        · simp [SData.ready, SData.setSt, set_ne _ _ hpq] at h h0; exact absurd h0 h
      case svExn q w hq =>
        by_cases hpq : p = q
        · subst hpq; simp [SData.ready, SData.setSt, set_same] at h h0; exact absurd h0 h
        · simp [SData.ready, SData.setSt, set_ne _ _ hpq] at h h0; exact absurd h0 h
      case srVal q w =>
        by_cases hpq : p = q
        · subst hpq; exact ⟨_, rest, hst, rfl, hact.1, h0'⟩
        · simp [SData.ready, SData.setSt, SData.ev, set_ne _ _ hpq] at h h0; exact absurd h0 h
      case srExn q w =>
        by_cases hpq : p = q
        · subst hpq; exact ⟨_, rest, hst, rfl, hact.1, h0'⟩
        · simp [SData.ready, SData.setSt, SData.ev, set_ne _ _ hpq] at h h0; exact absurd h0 h
    · have := (quiet (ty1_I hr) hS hsp p).1.status
      simp only [SData.ready, this] at h; exact absurd h h0
  | app g rest a he hst hd hact => rw [hd] at h; exact absurd h h0
  | hand e f f' rest he hst hn hf hst' he' hd => rw [hd] at h; exact absurd h h0
  | drop e f rest he hst hn hf hst' he' hd => rw [hd] at h; exact absurd h h0
  | core f rest pre hst hpre hst' hd => rw [hd] at h; exact absurd h h0
  | still hst' he' hd => rw [hd] at h; exact absurd h h0

theorem Pkg.back {d d' : SData α} (h : Ext d d') {p : Nat} (hlt : p < d.nst) (hp : Pkg d' p) : Pkg d p := ⟨hlt, by rw [← h.owner hlt]; exact hp.2⟩
theorem Pkg.tk {d : SData α} {p : Nat} (hp : Pkg d p) : tkOk d p := ⟨hp.1, by rw [hp.2]; simp⟩

/-- The frame below a set of the state of a packaged task. -/
theorem below_R {d : SData α} {t p : Nat} {r : Res} {rest : List (Fr α φ)} (h : Below d t p r rest) :
    ∃ g rest', rest = .client g :: rest' ∧ 1 ≤ fw .R p g ∧ ((runP p g ∧ r ≠ .exn .brokenPromise) ∨ (∃ e, g = .ftEnd p ∧ r = .exn e) ∨ g = .pdEnd p ∧ r = .exn .brokenPromise) := by
  rcases h with ⟨a, b, h1, h2, h3⟩ | ⟨a, b, h1, h2, h3⟩ | ⟨a, h1, h2⟩
  · exact ⟨_, a, h1, by simp [fw, Tab.run1, b1], .inl ⟨rfl, by rw [h2]; simp⟩⟩
  · exact ⟨_, a, h1, by simp [fw, Tab.run1, b1], .inr (.inl ⟨b, rfl, h2⟩)⟩
  · exact ⟨_, a, h1, by simp [fw, Tab.dt, b1], .inr (.inr ⟨rfl, h2⟩)⟩

/-- A call that has begun goes on until the state is ready. -/
theorem startC (hr : SR A ad i0 s) : ∀ t p, .bodyStart t p ∈ s.data.sd.slog → rdy s.data.sd p ∨ ∃ g, .client g ∈ s.stk t ∧ runP p g := by
  refine Reach.induct (fun s => ∀ t p, .bodyStart t p ∈ s.data.sd.slog → rdy s.data.sd p ∨ ∃ g, .client g ∈ s.stk t ∧ runP p g) ?_ ?_ hr
  · intro t p h; simp [Core.init] at h
  · intro s l s' hr q hs
    have hext := step_ext hs
    cases l with
    | tick n => rw [step_tick _ s s' n hs]; exact q
    | th t ch =>
      intro u p h
      have old : .bodyStart u p ∈ s.data.sd.slog → rdy s'.data.sd p ∨ ∃ g, .client g ∈ s'.stk u ∧ runP p g := by
        intro h
        rcases q u p h with h1 | ⟨g, hg, hp⟩
        · exact .inl (rdy_mono hext h1)
        rcases lost_mv hr hs hg with h1 | ⟨rfl, rest, hst, ⟨a, he, hS, hact⟩ | ⟨x, rfl⟩ | ⟨e, g', he, hf, hst', hd⟩ | ⟨e, he, hn, hf⟩⟩
        · exact .inr ⟨g, h1, hp⟩
        · have tr := topReady hr u g rest p hst
          generalize s'.data.sd = d' at hS hext ⊢
          cases hS <;> first | exact hp.elim | skip
          case ftSet q => exact .inr ⟨.ftDone q, by rw [hact.1]; simp, hp⟩
          case ftDone q => exact .inl (rdy_mono hext (tr hp))
          case ftThrew q e => exact .inr ⟨.ftExc q e, by rw [hact.1]; simp, hp⟩
          case ftExc q e => exact .inr ⟨.ftEnd q, by rw [hact.1]; simp, hp⟩
          case ftEnd q => exact .inl (rdy_mono hext (tr hp))
          case ftFin q => exact .inl (rdy_mono hext (tr hp))
        · exact hp.elim
        · have hp' : runP p g' := by
            cases g <;> first | exact hp.elim | skip
            all_goals simp only [sThrow, Option.some.injEq, reduceCtorEq] at hf
            all_goals (subst hf; exact hp)
          exact .inr ⟨g', by rw [hst']; exact List.mem_cons_self, hp'⟩
        · cases g <;> first | exact hp.elim | exact absurd trivial hn | skip
          all_goals simp only [sThrow, reduceCtorEq] at hf
      cases mv hr hs with
      | sync f rest a he hst hS hact =>
        by_cases hc : callF f
        · generalize hd : s'.data.sd = d' at *
          cases hS <;> first | exact hc.elim | skip
          case ftRun q a =>
            rcases List.mem_cons.1 h with h | h
            · cases h; exact .inr ⟨.ftSet p, by rw [show s'.stk (s.view t).tid = _ from hact.1]; simp, rfl⟩
            · exact old h
          case ftSet q => exact old (by simpa [SData.ev] using h)
          case ftThrew q e => exact old (by simpa [SData.ev] using h)
        · exact old ((call_log hS hc (e := .bodyStart u p) trivial).1 h)
      | app g rest a he hst hd hact => rw [hd] at h; exact old h
      | hand e f f' rest he hst hn hf hst' he' hd => rw [hd] at h; exact old h
      | drop e f rest he hst hn hf hst' he' hd => rw [hd] at h; exact old h
      | core f rest pre hst hpre hst' hd => rw [hd] at h; exact old h
      | still hst' he' hd => rw [hd] at h; exact old h

/-- A destructor that has broken the promise. -/
def pdP (p : Nat) : SFrame α φ → Prop
  | .pdEnd q => q = p
  | .term (some q) => q = p
  | _ => False

theorem pdP_fw {p : Nat} {g : SFrame α φ} (h : pdP p g) : 1 ≤ fw .R p g := by
  cases g <;> first | exact h.elim | skip
  · rename_i q; cases q with
    | none => exact h.elim
    | some q => obtain rfl := show _ = p from h; simp [fw, Tab.dt, b1]
  · obtain rfl := show _ = p from h; simp [fw, Tab.dt, b1]

/-- The state of a packaged task is ready only after a call or after its destructor broke the promise. -/
theorem readyD (hr : SR A ad i0 s) : ∀ p, Pkg s.data.sd p → s.data.sd.ready p = true →
    (∃ t, .bodyStart t p ∈ s.data.sd.slog) ∨ (∃ t, .dropped t p ∈ s.data.sd.slog) ∨ ∃ t g, .client g ∈ s.stk t ∧ pdP p g := by
  refine Reach.induct (fun s => ∀ p, Pkg s.data.sd p → s.data.sd.ready p = true →
    (∃ t, .bodyStart t p ∈ s.data.sd.slog) ∨ (∃ t, .dropped t p ∈ s.data.sd.slog) ∨ ∃ t g, .client g ∈ s.stk t ∧ pdP p g) ?_ ?_ hr
  · intro p hp; exact absurd hp.1 (by simp [Core.init])
  · intro s l s' hr q hs
    have hext := step_ext hs
    cases l with
    | tick n => rw [step_tick _ s s' n hs]; exact q
    | th t ch =>
      intro p hp h
      rcases ready_new hr hs h with h1 | ⟨r, rest, hst, hlog, hst', -⟩
      · have hlt : p < s.data.sd.nst := by
          by_contra hlt
          rw [SData.ready, (ty1_I hr).fresh p (by omega)] at h1; simp at h1
        rcases q p (hp.back hext hlt) h1 with ⟨u, h2⟩ | ⟨u, h2⟩ | ⟨u, g, hg, hpd⟩
        · exact .inl ⟨u, hext.mem h2⟩
        · exact .inr (.inl ⟨u, hext.mem h2⟩)
        · rcases lost_mv hr hs hg with h3 | ⟨rfl, rest, hst, ⟨a, he, hS, hact⟩ | ⟨x, rfl⟩ | ⟨e, g', he, hf, hst', hd⟩ | ⟨e, he, hn, hf⟩⟩
          · exact .inr (.inr ⟨u, g, h3, hpd⟩)
          · generalize s'.data.sd = d' at hS ⊢
            cases hS <;> first | exact hpd.elim | skip
            case term q => exact .inr (.inr ⟨u, _, by rw [hact.1, hst]; exact List.mem_cons_self, hpd⟩)
            case pdEnd q => obtain rfl := show q = p from hpd; exact .inr (.inl ⟨_, List.mem_cons_self⟩)
          · exact hpd.elim
          · have hp' : pdP p g' := by
              cases g <;> first | exact hpd.elim | skip
              all_goals simp only [sThrow, Option.some.injEq, reduceCtorEq] at hf
              subst hf; exact hpd
            exact .inr (.inr ⟨u, g', by rw [hst']; exact List.mem_cons_self, hp'⟩)
          · cases g <;> first | exact hpd.elim | exact absurd trivial hn | skip
            all_goals simp only [sThrow, reduceCtorEq] at hf
      · have hmem : .client (.srSet p r) ∈ s.stk t := by rw [hst]; simp
        have hlt : p < s.data.sd.nst := svr_lt hr hmem (r := r) ⟨rfl, rfl⟩
        have hb := below hr t _ rest p r hst ⟨rfl, rfl⟩ (hp.back hext hlt).tk
        obtain ⟨g, rest', rfl, h1, h2⟩ := below_R hb
        have hg : .client g ∈ s.stk t := by rw [hst]; simp
        rcases h2 with ⟨h2, -⟩ | ⟨e, rfl, -⟩ | ⟨rfl, -⟩
        · exact .inl ⟨t, hext.mem (runP_start hr hg h2)⟩
        · exact .inl ⟨t, hext.mem (runP_start hr hg (p := p) rfl)⟩
        · exact .inr (.inr ⟨t, .pdEnd p, by rw [hst']; simp, rfl⟩)

/-- A packaged task about to be called has a state that is not ready. -/
theorem run_notReady (hr : SR A ad i0 s) {t p : Nat} {a : α} (hp : Pkg s.data.sd p) (hf : .client (.ftRun p a) ∈ s.stk t) : s.data.sd.ready p = false := by
  by_contra h
  have h1 : 1 ≤ fw .R p (.ftRun p a : SFrame α φ) := by simp [fw, Tab.run0, b1]
  rcases readyD hr p hp (by simpa using h) with ⟨u, h2⟩ | ⟨u, h2⟩ | ⟨u, g, hg, hpd⟩
  · exact U_start hr hp hf h2
  · exact R_dropped hr hp hf h1 h2
  · have := (uniqR hr hp hf hg h1 (pdP_fw hpd)).2
    subst this; exact hpd.elim


/-! ## No set of the state of a packaged task is refused -/

/-- Frames of a call or set of `p` before the state becomes ready. -/
def preSet (p : Nat) : SFrame α φ → Prop
  | .ftSet q => q = p
  | .ftThrew q _ => q = p
  | .ftExc q _ => q = p
  | .svIn q _ => q = p
  | .svChk q _ => q = p
  | .srSet q _ => q = p
  | _ => False

theorem preSet_cases {p : Nat} {g : SFrame α φ} (h : preSet p g) :
    (∃ r, svr p r g) ∨ (runP p g ∧ (g = .ftSet p ∨ (∃ e, g = .ftThrew p e) ∨ ∃ e, g = .ftExc p e)) := by
  cases g <;> first | exact h.elim | skip
  all_goals obtain rfl := show _ = p from h
  · exact .inl ⟨_, rfl, rfl⟩
  · exact .inl ⟨_, rfl, rfl⟩
  · exact .inl ⟨_, rfl, rfl⟩
  · exact .inr ⟨rfl, .inl rfl⟩
  · exact .inr ⟨rfl, .inr (.inl ⟨_, rfl⟩)⟩
  · exact .inr ⟨rfl, .inr (.inr ⟨_, rfl⟩)⟩

theorem svr_pre {p : Nat} {r : Res} {g : SFrame α φ} (h : svr p r g) : preSet p g := by
  cases g <;> first | exact h.elim | exact h.1

/-- A frame with nothing above it is on top. -/
theorem mem_top (hr : SR A ad i0 s) {t : Nat} {g : SFrame α φ} (hg : .client g ∈ s.stk t) (h : ∀ u, ¬ Adj (α := α) (.client g) u) :
    ∃ rest, s.stk t = .client g :: rest := by
  obtain ⟨a, b, hab⟩ := List.append_of_mem hg
  rcases List.eq_nil_or_concat a with rfl | ⟨a, x, rfl⟩
  · exact ⟨b, hab⟩
  · have hch := (stk_ok hr).chain t
    rw [hab] at hch
    simp only [List.concat_eq_append, List.append_assoc, List.singleton_append] at hch
    exact absurd (chain_mid hch) (h x)

theorem preSet_lt (hr : SR A ad i0 s) {t p : Nat} {g : SFrame α φ} (hg : .client g ∈ s.stk t) (h : preSet p g) : p < s.data.sd.nst := by
  have := ty1_F hr hg
  cases g <;> first | exact h.elim | skip
  all_goals obtain rfl := show _ = p from h
  all_goals first | exact this | exact (show tkOk _ _ from this).1

/-- Where such frames come from. -/
theorem to_pre {run destroy : α → φ} {v : View} {d d' : SData α} {rv : Val} {f g : SFrame α φ} {a : Act (STask α) (SFrame α φ)} {p : Nat}
    (hS : SS run destroy v d rv f d' a) (hg : runP p g) (hx : a = .goto g ∨ (∃ k, a = .push g k) ∨ (∃ f, a = .push f g) ∨ ∃ b, a = .call b g) :
    runP p f ∧ ((g = .ftSet p ∨ (∃ e, g = .ftThrew p e) ∨ ∃ e, g = .ftExc p e) → preSet p f) ∨ ∃ a, f = .ftRun p a ∧ g = .ftSet p := by
  cases hS
  case laRet K c => cases K <;> cases h : decide (rv ≠ .bool true) <;> simp [laNext, h] at hx <;> rcases hx with rfl | rfl <;> exact hg.elim
  case laEnd K c => cases K <;> simp [laNext] at hx <;> first | (rcases hx with rfl | rfl <;> exact hg.elim) | (subst hx; exact hg.elim)
  case ftRun q a =>
    simp at hx
    rcases hx with rfl | rfl
    · exact hg.elim
    · obtain rfl := show _ = p from hg; exact .inr ⟨a, rfl, rfl⟩
  case ftSet q => simp at hx; rcases hx with rfl | rfl; exact hg.elim; exact .inl ⟨hg, fun _ => hg⟩
  case ftThrew q e => simp at hx; subst hx; exact .inl ⟨hg, fun _ => hg⟩
  case ftExc q e => simp at hx; rcases hx with rfl | rfl; exact hg.elim; exact .inl ⟨hg, fun _ => hg⟩
  all_goals first
    | (simp at hx; done)
    | (simp only [Act.goto.injEq, reduceCtorEq, exists_false, or_false, Act.push.injEq, Act.call.injEq, exists_eq_right', exists_and_left, exists_eq', and_true, false_or, exists_eq_left', exists_and_right] at hx
       first
         | (subst hx; exact hg.elim)
         | (rcases hx with rfl | rfl <;> exact hg.elim))

theorem exclB (hr : SR A ad i0 s) :
    (∀ t g p, Pkg s.data.sd p → .client g ∈ s.stk t → preSet p g → s.data.sd.ready p = false) ∧
    (∀ t g rest p, Pkg s.data.sd p → s.stk t = .client g :: rest → afterSet p g → (s.thr t).exc = none) := by
  refine Reach.induct (fun s => (∀ t g p, Pkg s.data.sd p → .client g ∈ s.stk t → preSet p g → s.data.sd.ready p = false) ∧
    (∀ t g rest p, Pkg s.data.sd p → s.stk t = .client g :: rest → afterSet p g → (s.thr t).exc = none)) ?_ ?_ hr
  · exact ⟨fun t g p hp => absurd hp.1 (by simp [Core.init]), fun t g rest p hp => absurd hp.1 (by simp [Core.init])⟩
  · intro s l s' hr ⟨q1, q2⟩ hs
    have hext := step_ext hs
    cases l with
    | tick n => rw [step_tick _ s s' n hs]; exact ⟨q1, q2⟩
    | th t ch =>
      have hr' := Reach.step hr hs
      refine ⟨?_, ?_⟩
      · intro u g p hp hg h
        by_contra hrd
        have hrd : s'.data.sd.ready p = true := by simpa using hrd
        rcases ready_new hr hs hrd with h1 | ⟨r, rest, hst, hlog, hst', h0⟩
        · have hlt : p < s.data.sd.nst := by
            by_contra hlt
            rw [SData.ready, (ty1_I hr).fresh p (by omega)] at h1; simp at h1
          have hp0 := hp.back hext hlt
          have no : ∀ v f, .client f ∈ s.stk v → preSet p f → False := by
            intro v f hf hpf; have := q1 v f p hp0 hf hpf; rw [h1] at this; cases this
          have usr : ∀ q, s.data.sd.obj q = some p → False := by
            intro q hq
            have := ((ty1_I hr).obj q p hq).2
            rw [hp0.2] at this; cases this
          rcases mem_mv hr hs hg with h2 | h2 | ⟨a, rfl⟩ | ⟨rfl, f, rest, a, he, hst, hS, hact, hx⟩ | ⟨rfl, e, f, rest, he, hst, hn, hf, hst', hd⟩
          · exact no _ _ h2 h
          · cases g <;> first | exact h.elim | exact h2.elim
          · cases a <;> exact h.elim
          · have hfm : .client f ∈ s.stk u := by rw [hst]; simp
            rcases preSet_cases h with ⟨r, hr'⟩ | ⟨hg1, hg2⟩
            · rcases hx with rfl | ⟨k, rfl⟩ | ⟨k, rfl⟩ | ⟨b, rfl⟩
              · rcases (to_svr hS hr').1 rfl with h3 | ⟨q, hq, -⟩
                · exact no u f hfm (svr_pre h3)
                · exact usr _ hq
              · rcases ((to_svr hS hr').2.1 k rfl).2 with ⟨rfl, -⟩ | ⟨e, rfl, -⟩ | ⟨rfl, -, -, h3, -⟩ | ⟨q, hq, -⟩
                · exact no u _ hfm rfl
                · exact no u _ hfm rfl
                · rw [h1] at h3; cases h3
                · exact usr _ hq
              · exact (to_svr hS hr').2.2.1 _ rfl
              · exact (to_svr hS hr').2.2.2 _ rfl
            · rcases to_pre hS hg1 hx with ⟨-, h3⟩ | ⟨a, rfl, -⟩
              · exact no u f hfm (h3 hg2)
              · have := run_notReady hr hp0 hfm; rw [h1] at this; cases this
          · have hfm : .client f ∈ s.stk u := by rw [hst]; simp
            cases f <;> simp only [sThrow, Option.some.injEq, Option.map_eq_some_iff, reduceCtorEq] at hf <;>
              first | (subst hf; exact h.elim) | (obtain ⟨x, -, rfl⟩ := hf; exact h.elim) | skip
            case ftSet q => subst hf; exact no u _ hfm h
            case ftDone q =>
              subst hf
              obtain rfl := show _ = p from h
              have := q2 u _ _ _ hp0 hst rfl
              rw [he] at this; cases this
        · have hmem : .client (.srSet p r) ∈ s.stk t := by rw [hst]; simp
          have hlt : p < s.data.sd.nst := svr_lt hr hmem (r := r) ⟨rfl, rfl⟩
          have hp0 := hp.back hext hlt
          have hb := below hr t _ rest p r hst ⟨rfl, rfl⟩ hp0.tk
          obtain ⟨x, rest', rfl, h1, h2⟩ := below_R hb
          have hx : .client x ∈ s.stk t := by rw [hst]; simp
          have hg0 : .client g ∈ s.stk u ∧ (u = t → .client g ∈ .client x :: rest') := by
            by_cases hu : u = t
            · subst hu
              rw [hst'] at hg
              rcases List.mem_cons.1 hg with h3 | h3
              · cases h3; exact h.elim
              · exact ⟨by rw [hst]; exact List.mem_cons_of_mem _ h3, fun _ => h3⟩
            · rcases mv_oth hr hs hu with ⟨h3, -⟩ | ⟨-, g', h3, h4⟩
              · rw [h3] at hg; exact ⟨hg, fun h => absurd h hu⟩
              · rw [h3] at hg; simp at hg; subst hg
                cases g <;> first | exact h.elim | exact h4.elim
          rcases preSet_cases h with ⟨r', hr'⟩ | ⟨hg1, hg2⟩
          · obtain ⟨rst, htop⟩ := mem_top hr hg0.1 (fun u => above_svr hr')
            have hb' := below hr u g rst p r' htop hr' hp0.tk
            obtain ⟨y, rest'', rfl, h3, h4⟩ := below_R hb'
            have hy : .client y ∈ s.stk u := by rw [htop]; simp
            obtain ⟨rfl, -⟩ := uniqR hr hp0 hx hy h1 h3
            have hg3 := hg0.2 rfl
            have hch := (stk_ok hr).chain t
            obtain ⟨a, b, hab⟩ := List.append_of_mem hg3
            rw [hst, hab] at hch
            rcases List.eq_nil_or_concat a with rfl | ⟨a, z, rfl⟩
            · exact above_svr hr' hch.1
            · simp only [List.concat_eq_append, List.append_assoc, List.singleton_append] at hch
              exact above_svr hr' (chain_mid (pre := _ :: a) hch)
          · have := (uniqR hr hp0 hx hg0.1 h1 (runP_fw hg1)).2
            subst this
            have hty : x = .ftDone p ∨ x = .ftEnd p ∨ x = .pdEnd p := by
              rcases hb with ⟨a, b, h3, -⟩ | ⟨a, b, h3, -⟩ | ⟨a, h3, -⟩ <;> cases h3 <;> simp
            rcases hty with rfl | rfl | rfl <;> exact h.elim
      · intro u g rst p hp hst h
        by_contra hne
        by_cases hu : u = t
        · subst hu
          have hch := (stk_ok hr).chain u
          have popd : ∀ x rest, s.stk u = x :: rest → rest = .client g :: rst → ∃ f, x = .client f ∧ setFam p f := by
            intro x rest h1 h2
            rw [h1, h2] at hch
            exact afterSet_below h hch.1
          have lt : .client g ∈ s.stk u → Pkg s.data.sd p := by
            intro hm
            refine hp.back hext ?_
            have := ty1_F hr hm
            cases g <;> first | exact h.elim | skip
            all_goals obtain rfl := show _ = p from h
            all_goals first | exact (show tkOk _ _ from this).1 | exact (show _ ∧ _ from this).1
          cases mv hr hs with
          | sync f rest a he hst0 hS hact =>
            cases a with
            | throw v =>
              rw [hact.1] at hst
              obtain ⟨f1, h1, hf⟩ := popd _ _ hst0 hst
              cases h1
              obtain ⟨h1, r', rfl⟩ := throw_set hS hf
              have := q1 u _ p (lt (by rw [hst0, hst]; simp)) (by rw [hst0]; exact List.mem_cons_self) (show preSet p (.svChk p r') from rfl)
              rw [h1] at this; cases this
            | goto f' => exact hne hact.2.1
            | push f' k => exact hne hact.2.1
            | call b k => exact hne hact.2.1
            | ret v => exact hne hact.2.1
            | terminate => exact hne hact.2.2
          | app x rest a he hst0 hd hact =>
            cases a <;> simp only [liftAct, ActTo] at hact <;> first | exact hne hact.2.1 | exact hne hact.2.2 | skip
            rw [hact.1] at hst
            obtain ⟨f1, h1, hf⟩ := popd _ _ hst0 hst; cases h1; exact hf.elim
          | hand e f f' rest he hst0 hn hf hst' he' hd => exact hne he'
          | drop e f rest he hst0 hn hf hst' he' hd =>
            rw [hst'] at hst
            obtain ⟨f1, h1, hf⟩ := popd _ _ hst0 hst
            cases h1
            exact absurd (setFam_nt hf) hn
          | core f rest pre hst0 hpre hst' hd =>
            rw [hst'] at hst
            cases pre with
            | nil => obtain ⟨f1, h1, hf⟩ := popd _ _ hst0 hst; cases h1
            | cons x pre =>
              cases hst
              exact absurd h (triv_not_after (hpre g (by simp)))
          | still hst' he' hd =>
            rw [hst'] at hst
            rcases he' with he' | he'
            · rw [he'] at hne; exact hne (q2 u g rst p (lt (by rw [hst]; simp)) hst h)
            · rw [he'] at hst; cases hst
        · rcases mv_oth hr hs hu with ⟨h1, h2⟩ | ⟨h0, g', h1, hg'⟩
          · rw [h1] at hst
            have hne0 : s.stk u ≠ [] := by rw [hst]; simp
            rw [h2 hne0] at hne
            have : Pkg s.data.sd p := by
              refine hp.back hext ?_
              have := ty1_F hr (t := u) (g := g) (by rw [hst]; simp)
              cases g <;> first | exact h.elim | skip
              all_goals obtain rfl := show _ = p from h
              all_goals first | exact (show tkOk _ _ from this).1 | exact (show _ ∧ _ from this).1
            exact hne (q2 u g rst p this hst h)
          · rw [h1] at hst; cases hst; exact absurd h (triv_not_after hg')

end
end Sync
end Itc
