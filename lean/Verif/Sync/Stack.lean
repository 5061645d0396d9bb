import Verif.Sync.Cases

/-!
# Which frame of the synchronisation layer may be directly above which (proof infrastructure, no claims)
-/
namespace Itc
namespace Sync
open Core
section
variable {α φ δ χ : Type}

abbrev Fr (α φ : Type) := Core.Frame (STask α) (SFrame α φ)

def _root_.Itc.Sync.NK.isFut (p : Nat) : NK α → Prop
  | .cv _ => False
  | .mtx _ => False
  | .fut q _ => q = p

def _root_.Itc.Sync.LK.isSr (p : Nat) : LK α → Prop
  | .sr q _ _ => q = p
  | .sc => False
  | .as => False

def _root_.Itc.Sync.LK.isSc : LK α → Prop
  | .sr _ _ _ => False
  | .sc => True
  | .as => False

def _root_.Itc.Sync.W.isFw (p : Nat) : W → Prop
  | .cv _ _ => False
  | .mtx _ _ => False
  | .fw q => q = p
  | .fv _ _ => False

/-- Activation of set_value / set_exception of state `p`. -/
def setFam (p : Nat) : SFrame α φ → Prop
  | .svIn q _ => q = p
  | .svChk q _ => q = p
  | .srSet q _ => q = p
  | .naIn K => K.isFut p
  | .nLoop K _ => K.isFut p
  | .nCall K _ _ _ => K.isFut p
  | .nAfter K _ _ _ => K.isFut p
  | .srUnl q _ => q = p
  | .srLoop q _ _ => q = p
  | .laIn K _ => K.isSr p
  | .laRet K _ => K.isSr p
  | .laInl K _ => K.isSr p
  | .srDtor q _ => q = p
  | _ => False

/-- Activation of the call of a packaged task. -/
def runFam (p : Nat) : SFrame α φ → Prop
  | .ftRun q _ => q = p
  | .ftSet q => q = p
  | .ftDone q => q = p
  | .ftThrew q _ => q = p
  | .ftExc q _ => q = p
  | .ftEnd q => q = p
  | .ftFin q => q = p
  | _ => False

/-- Activation of the destructor of a packaged task. -/
def dtorFam (p : Nat) : SFrame α φ → Prop
  | .ftDtor q _ => q = p
  | .pdIn q => q = p
  | .pdEnd q => q = p
  | .term _ => True
  | _ => False

/-- Activation of set_continuation, and of the destructor of a task not moved by async. -/
def scFam : SFrame α φ → Prop
  | .scIn _ _ => True
  | .laIn K _ => K.isSc
  | .laRet K _ => K.isSc
  | .laInl K _ => K.isSc
  | .ftDtor _ _ => True
  | .pdIn _ => True
  | .pdEnd _ => True
  | .term _ => True
  | _ => False

/-- Activation of future::wait. -/
def waitFam (p : Nat) : SFrame α φ → Prop
  | .fwIn q => q = p
  | .fwLoop q => q = p
  | .fwChk q => q = p
  | .swIn w => w.isFw p
  | .swLoop w _ _ => w.isFw p
  | .swChk w _ _ => w.isFw p
  | .swBefore w _ _ => w.isFw p
  | .swAfter w _ _ => w.isFw p
  | .swRem w _ _ _ => w.isFw p
  | _ => False

def appFam : SFrame α φ → Prop
  | .app _ => True
  | _ => False

/-- Activation of `notify(i)`. -/
def notFam (i : Nat) : CF (STask α) (SFrame α φ) → Prop
  | .dispatch j k => j = i ∧ k = .noop
  | .invLook j k own => j = i ∧ k = .noop ∧ own = true
  | .invPush _ k => k = .noop
  | .release _ _ _ => True
  | .destroyList _ _ _ _ => True
  | .retv _ => True
  | .dispRan k => k = .noop
  | _ => False

/-- Activation of invoke_packaged_task. -/
def invFam (k : STask α) : CF (STask α) (SFrame α φ) → Prop
  | .invLook _ k' own => k' = k ∧ own = false
  | .invPush _ k' => k' = k
  | .release _ _ v => v = .bool true
  | .destroyList _ _ _ v => v = .bool true
  | _ => False

def _root_.Itc.Core.Cont.isWait : Cont → Prop
  | .toWait _ => True
  | .toAll => False
  | .toFor _ => False

/-- Activation of this_thread::wait / wait_for. -/
def blkFam : CF (STask α) (SFrame α φ) → Prop
  | .waitForIn _ => True
  | .waitIn _ => True
  | .parked _ _ => True
  | .ran _ _ r => r.isWait
  | .freed _ _ r => r.isWait
  | .rethrow _ => True
  | _ => False

def cOnly (P : SFrame α φ → Prop) : Fr α φ → Prop
  | .client f => P f
  | .core _ => False

def kOnly (P : CF (STask α) (SFrame α φ) → Prop) : Fr α φ → Prop
  | .client _ => False
  | .core f => P f

/-- Tasks handed over by the application itself are its own. -/
def _root_.Itc.Sync.STask.isApp : STask α → Prop
  | .app _ => True
  | _ => False

def appK : CF (STask α) (SFrame α φ) → Prop
  | .dispatch _ k => k.isApp
  | .invLook _ k _ => k.isApp
  | .invPush _ k => k.isApp
  | .dispRan k => k.isApp
  | _ => True

/-- Frames that are not directly above application code. -/
def upOk : SFrame α φ → Prop
  | .ftRun _ _ => False
  | .ftSet _ => False
  | .ftDone _ => False
  | .ftThrew _ _ => False
  | .ftExc _ _ => False
  | .ftEnd _ => False
  | .ftFin _ => False
  | .ftDtor _ _ => False
  | .pdIn _ => False
  | .pdEnd _ => False
  | .scIn _ _ => False
  | .laIn K _ => ¬ K.isSc
  | .laRet K _ => ¬ K.isSc
  | .laInl K _ => ¬ K.isSc
  | _ => True

def upF : Fr α φ → Prop
  | .client f => upOk f
  | .core f => appK f

/-- Call or destructor of packaged task `p`. -/
def rdFam (p : Nat) (f : SFrame α φ) : Prop := runFam p f ∨ dtorFam p f

/-- Application code, and destructors of tasks. -/
def tskC (f : SFrame α φ) : Prop := appFam f ∨ f = .done .unit ∨ ∃ p, dtorFam p f

def anyF : Fr α φ → Prop
  | .client f => tskC f
  | .core f => appK f

def adjC : SFrame α φ → Fr α φ → Prop
  | .app _ => upF
  | .xtRet p => cOnly (rdFam p)
  | .done _ => cOnly scFam
  | .swAfter _ _ _ => kOnly blkFam
  | .wfAfter _ _ _ _ => kOnly blkFam
  | .nAfter _ i _ _ => kOnly (notFam i)
  | .laRet _ c => kOnly (invFam (.fut c.p c.body))
  | .laInl _ c => cOnly (runFam c.p)
  | .ftSet _ => cOnly appFam
  | .pdIn _ => cOnly appFam
  | .ftDone p => cOnly (setFam p)
  | .ftEnd p => cOnly (setFam p)
  | .pdEnd p => cOnly (setFam p)
  | .poEnd _ p => cOnly (setFam p)
  | .srDtor _ _ => cOnly (fun f => ∃ p, dtorFam p f)
  | .fgVal p => cOnly (waitFam p)
  | _ => fun _ => False

def adjDisp : STask α → Fr α φ → Prop
  | .noop => cOnly (fun f => f = .done .unit)
  | .app _ => anyF
  | .fut p _ => cOnly (runFam p)

def adjRan : STask α → Fr α φ → Prop
  | .noop => cOnly (fun f => f = .done .unit)
  | .app _ => anyF
  | .fut p _ => cOnly (runFam p)

def adjK : CF (STask α) (SFrame α φ) → Fr α φ → Prop
  | .dispRan k => adjDisp k
  | .ran _ k _ => adjRan k
  | .waitIn _ => fun _ => False
  | .waitForIn _ => fun _ => False
  | .dispatch _ _ => fun _ => False
  | .invLook _ _ _ => fun _ => False
  | _ => anyF

/-- `Adj l u`: frame `u` may be directly above `l`. -/
def Adj : Fr α φ → Fr α φ → Prop
  | .client f => adjC f
  | .core f => adjK f

def ntC : SFrame α φ → Prop
  | .app _ => False
  | .swAfter _ _ _ => False
  | .wfAfter _ _ _ _ => False
  | .ftSet _ => False
  | .ftDone _ => False
  | .ftEnd _ => False
  | .pdIn _ => False
  | .pdEnd _ => False
  | .poEnd _ _ => False
  | .fgVal _ => False
  | _ => True

def ntDisp : STask α → Prop
  | .noop => True
  | .app _ => False
  | .fut _ _ => False

def ntRan : STask α → Prop
  | .noop => True
  | .app _ => False
  | .fut _ _ => True

def ntK : CF (STask α) (SFrame α φ) → Prop
  | .dispRan k => ntDisp k
  | .ran _ k _ => ntRan k
  | _ => False

/-- Frames at which no exception arrives. -/
def nt : Fr α φ → Prop
  | .client f => ntC f
  | .core f => ntK f

theorem Closed.cOnly' {A : App α φ δ χ} {J : St (STask α) (SFrame α φ) (Data α δ) → Prop} {P : SFrame α φ → Prop}
    (h1 : ∀ {v d f rv ch d' a g}, CS A v d rv ch f d' a → a.cont = some g → P f → P g)
    (h2 : ∀ {g e g'}, ¬ nt (α := α) (.client g) → sThrow A.onThrow g e = some g' → P g → P g') :
    Closed (client A) J nt (cOnly P) where
  client _ _ _ hs hc hf := h1 (client_cs hs) hc hf
  core _ h := h.elim
  handler h ht hf := h2 h ht hf
  task _ _ h := h.elim

theorem Closed.kOnly' {A : App α φ δ χ} {J : St (STask α) (SFrame α φ) (Data α δ) → Prop}
    {P : CF (STask α) (SFrame α φ) → Prop}
    (h1 : ∀ {s t f pre g}, CTo (client A) s t f (pre ++ [g]) → P f → kOnly P g)
    (h2 : ∀ {f k e}, ¬ nt (α := α) (φ := φ) (.core f) → f.running = some k → P f → P (.rethrow e)) :
    Closed (client A) J nt (kOnly P) where
  client _ _ _ _ _ hf := hf.elim
  core h hf := h1 h hf
  handler _ _ hf := hf.elim
  task h hr hf := h2 h hr hf

theorem laNext_cont {K : LK α} {c : Kont α} {b : Bool} {g : SFrame α φ} (h : (laNext K c b).cont = some g) :
    (∃ p dn l, K = .sr p dn l ∧ ∃ dn', g = .srLoop p dn' l) ∨ (K = .sc ∧ b = true ∧ g = .ftDtor c.p c.body) ∨
      (K = .as ∧ b = true ∧ g = .done (.nat c.p)) := by
  cases K <;> cases b <;> simp [laNext, Act.cont] at h <;> subst h <;> simp

/-- Close a goal about the continuation of a step by going through the branches. -/
local macro "fam" : tactic => `(tactic| (
  intro v d f rv ch d' a g hs hc hf
  cases hs with
  | app g' ad sa hA => exact False.elim hf
  | sync f sd a hS =>
    cases hS
    case laRet K c => rcases laNext_cont hc with ⟨p, dn, l, h1, dn', h2⟩ | ⟨h1, -, h2⟩ | ⟨h1, -, h2⟩ <;> subst h1 <;> subst h2 <;> first | exact hf | exact False.elim hf | trivial
    case laEnd K c => rcases laNext_cont hc with ⟨p, dn, l, h1, dn', h2⟩ | ⟨h1, -, h2⟩ | ⟨h1, -, h2⟩ <;> subst h1 <;> subst h2 <;> first | exact hf | exact False.elim hf | trivial
    all_goals first
      | exact False.elim hf
      | (cases hc; done)
      | (have hc := Option.some.inj hc; subst hc; first | exact hf | trivial | exact False.elim hf)))

local macro "hdl" : tactic => `(tactic| (
  intro g e g' hn ht hf
  cases g <;> first
    | exact False.elim hf
    | exact absurd trivial hn
    | (cases ht; done)
    | (have ht := Option.some.inj ht; subst ht; first | exact hf | trivial)))

theorem closed_set (A : App α φ δ χ) (J) (p : Nat) : Closed (client A) J nt (cOnly (setFam p)) :=
  Closed.cOnly' (by fam) (by hdl)

theorem closed_run (A : App α φ δ χ) (J) (p : Nat) : Closed (client A) J nt (cOnly (runFam p)) :=
  Closed.cOnly' (by fam) (by hdl)

theorem closed_dtor (A : App α φ δ χ) (J) (p : Nat) : Closed (client A) J nt (cOnly (dtorFam p)) :=
  Closed.cOnly' (by fam) (by hdl)

theorem closed_dtor' (A : App α φ δ χ) (J) : Closed (client A) J nt (cOnly (fun f => ∃ p, dtorFam p f)) where
  client h1 h2 h3 h4 h5 h6 := by
    obtain ⟨p, h6⟩ := h6
    exact ⟨p, (closed_dtor A J p).client h1 h2 h3 h4 h5 h6⟩
  core _ h := h.elim
  handler h ht hf := by
    obtain ⟨p, hf⟩ := hf
    exact ⟨p, (closed_dtor A J p).handler h ht hf⟩
  task _ _ h := h.elim

theorem closed_sc (A : App α φ δ χ) (J) : Closed (client A) J nt (cOnly scFam) :=
  Closed.cOnly' (by fam) (by hdl)

theorem closed_wait (A : App α φ δ χ) (J) (p : Nat) : Closed (client A) J nt (cOnly (waitFam p)) :=
  Closed.cOnly' (by fam) (by hdl)

theorem liftAct_cont {a : SAct α φ} {g : SFrame α φ} (h : (liftAct a).cont = some g) : ∃ x, g = .app x := by
  cases a <;> simp [liftAct, Act.cont] at h <;> exact ⟨_, h.symm⟩

theorem closed_app (A : App α φ δ χ) (J) : Closed (client A) J nt (cOnly appFam) := by
  refine Closed.cOnly' ?_ ?_
  · intro v d f rv ch d' a g hs hc hf
    cases hs with
    | app g' ad sa hA => obtain ⟨x, rfl⟩ := liftAct_cont hc; trivial
    | sync f sd a hS => cases f <;> first | exact hf.elim | exact hS.not_app.elim
  · intro g e g' hn ht hf
    cases g <;> first | exact hf.elim | skip
    simp [sThrow] at ht
    obtain ⟨x, -, rfl⟩ := ht
    trivial

theorem closed_done (A : App α φ δ χ) (J) : Closed (client A) J nt (cOnly (fun f => f = .done .unit)) := by
  refine Closed.cOnly' ?_ ?_
  · intro v d f rv ch d' a g hs hc hf
    subst hf
    cases hs with
    | sync f sd a hS => cases hS; simp [Act.cont] at hc
  · intro g e g' hn ht hf
    subst hf
    exact absurd trivial hn

theorem cto_last {C : Client (STask α) (SFrame α φ) (Data α δ) χ} {s t f pre g} (h : CTo C s t f (pre ++ [g])) :
    ∃ new, CTo C s t f new ∧ new.getLast? = some g := ⟨_, h, by simp⟩

local macro "kfam" : tactic => `(tactic| (
  intro s t f pre g h hf
  obtain ⟨new, h, hl⟩ := cto_last h
  cases h <;> (have hl := Option.some.inj hl; subst hl) <;> first
    | exact False.elim hf
    | exact hf
    | exact hf.2
    | exact hf.2.1
    | exact ⟨hf.1, hf.2, rfl⟩
    | exact hf.1
    | trivial
    | rfl
    | (cases hf.2; done)))

theorem closed_not (A : App α φ δ χ) (J) (i : Nat) : Closed (client A) J nt (kOnly (notFam i)) :=
  Closed.kOnly' (by kfam) (by
    intro f k e hn hr hf
    cases f <;> simp [CF.running] at hr
    · subst hr; cases (show _ = _ from hf); exact hn trivial
    · exact False.elim hf)

theorem closed_inv (A : App α φ δ χ) (J) (k : STask α) : Closed (client A) J nt (kOnly (invFam k)) :=
  Closed.kOnly' (by kfam) (by
    intro f k e hn hr hf
    cases f <;> first | exact False.elim hf | (cases hr; done))

theorem closed_blk (A : App α φ δ χ) (J) : Closed (client A) J nt (kOnly blkFam) :=
  Closed.kOnly' (by kfam) (by intro f k e hn hr hf; trivial)

theorem closed_any (A : App α φ δ χ) (J) : Closed (client A) J nt anyF where
  client h1 h2 h3 h4 h5 h6 := by
    rcases h6 with h6 | h6 | h6
    · exact .inl ((closed_app A J).client h1 h2 h3 h4 h5 h6)
    · exact .inr (.inl ((closed_done A J).client h1 h2 h3 h4 h5 h6))
    · exact .inr (.inr ((closed_dtor' A J).client h1 h2 h3 h4 h5 h6))
  core := by
    intro s t f pre g h hf
    obtain ⟨new, h, hl⟩ := cto_last h
    cases h <;> (have hl := Option.some.inj hl; subst hl) <;> first | trivial | exact hf
  handler h ht hf := by
    rcases hf with hf | hf | hf
    · exact .inl ((closed_app A J).handler h ht hf)
    · exact .inr (.inl ((closed_done A J).handler h ht hf))
    · exact .inr (.inr ((closed_dtor' A J).handler h ht hf))
  task _ _ _ := trivial

theorem task_any {A : App α φ δ χ} (k : STask α) : tskC ((client A).destroy k) ∧ (k.isApp → tskC ((client A).run k)) := by
  cases k
  · exact ⟨.inr (.inl rfl), fun h => h.elim⟩
  · exact ⟨.inl trivial, fun _ => .inl trivial⟩
  · exact ⟨.inr (.inr ⟨_, rfl⟩), fun h => h.elim⟩

theorem mapApi_any (a : Api α φ) : anyF (α := α) (φ := φ) (.core (mapApi a).entry) := by
  cases a <;> trivial

theorem liftAct_callee {a : SAct α φ} {u : Fr α φ} (h : (liftAct a).callee = some u) : upF u := by
  cases a <;> simp [liftAct, Act.callee] at h <;> subst h <;> first | trivial | exact mapApi_any _ | (rename_i a _; cases a <;> first | trivial | exact id)

theorem closed_up (A : App α φ δ χ) (J) : Closed (client A) J nt upF where
  client := by
    intro s t ch f rest d' a g _ _ _ hs hc hf
    cases client_cs hs with
    | app g' ad sa hA => obtain ⟨x, rfl⟩ := liftAct_cont hc; trivial
    | sync f sd a hS =>
      cases hS
      case laRet K c => rcases laNext_cont hc with ⟨p, dn, l, h1, dn', h2⟩ | ⟨h1, -, h2⟩ | ⟨h1, -, h2⟩ <;> subst h1 <;> subst h2 <;> first | trivial | exact hf trivial
      case laEnd K c => rcases laNext_cont hc with ⟨p, dn, l, h1, dn', h2⟩ | ⟨h1, -, h2⟩ | ⟨h1, -, h2⟩ <;> subst h1 <;> subst h2 <;> first | trivial | exact hf trivial
      all_goals first
        | exact False.elim hf
        | (cases hc; done)
        | (have hc := Option.some.inj hc; subst hc; first | trivial | exact hf | exact id)
  core := by
    intro s t f pre g h hf
    obtain ⟨new, h, hl⟩ := cto_last h
    cases h <;> (have hl := Option.some.inj hl; subst hl) <;> first | trivial | exact hf
  handler := by
    intro g e g' hn ht hf
    have ht : sThrow A.onThrow g e = some g' := ht
    cases g <;> first
      | exact False.elim hf
      | exact absurd trivial hn
      | (cases ht; done)
      | (have ht := Option.some.inj ht; subst ht; trivial)
      | skip
    simp only [sThrow, Option.map_eq_some_iff] at ht
    obtain ⟨x, -, rfl⟩ := ht
    trivial
  task _ _ _ := trivial

theorem closed_rd (A : App α φ δ χ) (J) (p : Nat) : Closed (client A) J nt (cOnly (rdFam p)) where
  client h1 h2 h3 h4 h5 h6 := by
    rcases h6 with h6 | h6
    · exact .inl ((closed_run A J p).client h1 h2 h3 h4 h5 h6)
    · exact .inr ((closed_dtor A J p).client h1 h2 h3 h4 h5 h6)
  core _ h := h.elim
  handler h ht hf := by
    rcases hf with hf | hf
    · exact .inl ((closed_run A J p).handler h ht hf)
    · exact .inr ((closed_dtor A J p).handler h ht hf)
  task _ _ h := h.elim

theorem closed_adj (A : App α φ δ χ) (J) (l : Fr α φ) : Closed (client A) J nt (Adj l) := by
  have tt := closed_any A J
  have ff : Closed (client A) J nt (fun _ => False) := ⟨by simp, by simp, by simp, by simp⟩
  cases l with
  | client f =>
    cases f
    case app => exact closed_up A J
    case xtRet => exact closed_rd A J _
    case done => exact closed_sc A J
    case swAfter => exact closed_blk A J
    case wfAfter => exact closed_blk A J
    case nAfter => exact closed_not A J _
    case laRet => exact closed_inv A J _
    case laInl => exact closed_run A J _
    case ftSet => exact closed_app A J
    case pdIn => exact closed_app A J
    case ftDone => exact closed_set A J _
    case ftEnd => exact closed_set A J _
    case pdEnd => exact closed_set A J _
    case poEnd => exact closed_set A J _
    case srDtor => exact closed_dtor' A J
    case fgVal => exact closed_wait A J _
    all_goals exact ff
  | core f =>
    cases f
    case dispRan k => cases k <;> first | exact closed_done A J | exact tt | exact closed_run A J _
    case ran c k r => cases k <;> first | exact closed_done A J | exact tt | exact closed_run A J _
    all_goals first | exact tt | exact ff

theorem laNext_callee {K : LK α} {c : Kont α} {b : Bool} {u : Fr α φ} (h : (laNext K c b).callee = some u) :
    K = .as ∧ b = true ∧ u = .client (.ftDtor c.p c.body) ∧ (laNext K c b : Act (STask α) (SFrame α φ)).cont = some (.done (.nat c.p)) := by
  cases K <;> cases b <;> simp [laNext, Act.callee] at h <;> simp [h, laNext, Act.cont]

theorem laNext_throw {K : LK α} {c : Kont α} {b : Bool} {e : Exn} (h : (laNext K c b : Act (STask α) (SFrame α φ)) = .throw e) :
    False := by
  cases K <;> cases b <;> simp [laNext] at h

theorem nt_adj {l : Fr α φ} {f : SFrame α φ} (hl : nt l) (h : Adj l (.client f)) :
    scFam f ∨ (∃ p, runFam p f) ∨ (∃ p, dtorFam p f) ∨ f = .done .unit := by
  cases l with
  | client l =>
    cases l <;> first
      | exact False.elim hl
      | (rcases h with h | h
         · exact .inr (.inl ⟨_, h⟩)
         · exact .inr (.inr (.inl ⟨_, h⟩)))
      | exact False.elim h
      | exact .inl h
      | exact .inr (.inl ⟨_, h⟩)
      | exact .inr (.inr (.inl h))
  | core l =>
    cases l <;> first
      | exact False.elim hl
      | skip
    case dispRan k => cases k <;> first | exact False.elim hl | exact .inr (.inr (.inr h))
    case ran c k r => cases k <;> first | exact False.elim hl | exact .inr (.inr (.inr h)) | exact .inr (.inl ⟨_, h⟩)

theorem nt_adjk {l : Fr α φ} {f : CF (STask α) (SFrame α φ)} (hl : nt l) (h : Adj l (.core f)) :
    (∃ i, notFam i f) ∨ (∃ k, invFam k f) := by
  cases l with
  | client l =>
    cases l <;> first
      | exact False.elim hl
      | exact False.elim h
      | exact .inl ⟨_, h⟩
      | exact .inr ⟨_, h⟩
  | core l =>
    cases l <;> first
      | exact False.elim hl
      | skip
    case dispRan k => cases k <;> first | exact False.elim hl | exact False.elim h
    case ran c k r => cases k <;> first | exact False.elim hl | exact False.elim h

theorem no_throw {A : App α φ δ χ} {v d f rv ch d'} {e : Exn} (hs : (client A).step v d f rv ch = some (d', .throw e)) :
    ¬ scFam f ∧ (∀ p, ¬ runFam p f) ∧ (∀ p, ¬ dtorFam p f) ∧ f ≠ .done .unit := by
  have key : ∀ a, (client A).step v d f rv ch = some (d', a) → a = .throw e →
      ¬ scFam f ∧ (∀ p, ¬ runFam p f) ∧ (∀ p, ¬ dtorFam p f) ∧ f ≠ .done .unit := by
    intro a hs ha
    cases client_cs hs with
    | app g' ad sa hA => exact ⟨id, fun _ => id, fun _ => id, by simp⟩
    | sync f sd a hS =>
      cases hS
      case laRet => exact (laNext_throw ha).elim
      case laEnd => exact (laNext_throw ha).elim
      all_goals first
        | (cases ha; done)
        | exact ⟨id, fun _ => id, fun _ => id, by simp⟩
  exact key _ hs rfl

/-- The stacking discipline of the layer. -/
def stacking (A : App α φ δ χ) (J : St (STask α) (SFrame α φ) (Data α δ) → Prop) (hJ : ∀ s, J s → Codes appFam s) : Stacking (client A) J where
  nt := nt
  Adj := Adj
  closed l := closed_adj A J l
  call := by
    intro s t ch f rest d' a u g _ _ _ hs hu hg
    cases client_cs hs with
    | app g' ad sa hA =>
      obtain ⟨x, rfl⟩ := liftAct_cont hg
      exact liftAct_callee hu
    | sync f sd a hS =>
      cases hS
      case laRet K c =>
        obtain ⟨-, -, rfl, h⟩ := laNext_callee hu
        rw [h] at hg; obtain rfl := Option.some.inj hg; trivial
      case laEnd K c =>
        obtain ⟨-, -, rfl, h⟩ := laNext_callee hu
        rw [h] at hg; obtain rfl := Option.some.inj hg; trivial
      case srDnext p c l =>
        obtain rfl := Option.some.inj hu
        obtain rfl := Option.some.inj hg
        exact ⟨_, rfl⟩
      all_goals first
        | (cases hu; done)
        | (obtain rfl := Option.some.inj hu; obtain rfl := Option.some.inj hg
           first | trivial | exact rfl | exact ⟨rfl, rfl⟩ | exact .inl rfl | exact .inr rfl)
  core := by
    intro s t f rest u g hj hst h
    have hcb : ∀ {x}, s.logCb = some x → tskC x := fun h => .inl ((hJ s hj).cb _ h)
    cases h
    case dispInl id k h => cases k <;> first | exact rfl | exact .inl trivial
    case waitRun d c k h => cases k <;> first | exact rfl | exact .inl trivial
    case parkRun d c k h b => cases k <;> first | exact rfl | exact .inl trivial
    case procAll c k h => cases k <;> first | exact rfl | exact .inl trivial
    case procFor e c k h => cases k <;> first | exact rfl | exact .inl trivial
    case initCfg x => exact .inl ((hJ s hj).code t (.initCfg (some x)) (by rw [hst]; simp) x rfl t)
    all_goals first | trivial | exact hcb ‹_› | exact (task_any _).1
  task := by intros; exact (task_any _).1
  noThrow := by
    intro s t ch f l rest d' e _ _ hs hadj hn
    obtain ⟨h1, h2, h3, h4⟩ := no_throw hs
    rcases nt_adj hn hadj with h | ⟨p, h⟩ | ⟨p, h⟩ | h
    · exact h1 h
    · exact h2 p h
    · exact h3 p h
    · exact h4 h
  pop := by
    intro l f e hl hadj hf
    rcases nt_adj hl hadj with h | ⟨p, h⟩ | ⟨p, h⟩ | h
    · cases f <;> first | exact False.elim h | trivial | (cases hf; done)
    · cases f <;> first | exact False.elim h | trivial | (cases hf; done)
    · cases f <;> first | exact False.elim h | trivial | (cases hf; done)
    · subst h; trivial
  unwind := by
    intro l f hl hadj hf
    rcases nt_adjk hl hadj with ⟨i, h⟩ | ⟨k, h⟩
    · cases f <;> first | exact False.elim h | (cases hf; done)
    · cases f <;> first | exact False.elim h | (cases hf; done)
  rethrow := by
    intro l e hadj hl
    rcases nt_adjk hl hadj with ⟨i, h⟩ | ⟨k, h⟩ <;> exact h

end
end Sync
end Itc
