import Verif.Sync.Ty
import Verif.Core.Lin

/-!
# Accounting for packaged tasks (proof infrastructure, no claims)

For a fixed packaged task `p`: where it is (callback lists, queues, frames), whether it may still be launched, be called, be destroyed.
-/
namespace Itc
namespace Sync
open Core
section
variable {α φ δ χ : Type}

/-! ## The lowest frame of a thread, and code handed to the core -/

def botL : List (Fr α φ) → Prop
  | [] => True
  | [f] => cOnly appFam f
  | _ :: g :: l => botL (g :: l)

theorem botL_app {f : Fr α φ} : ∀ {pre : List (Fr α φ)}, botL (pre ++ [f]) → cOnly appFam f
  | [], h => h
  | [_], h => h
  | _ :: g :: l, h => botL_app (pre := g :: l) h

theorem botL_cons {f : Fr α φ} {l : List (Fr α φ)} (h : l ≠ []) : botL (f :: l) ↔ botL l := by
  cases l with
  | nil => exact absurd rfl h
  | cons g l => exact Iff.rfl

theorem botL_tail {f : Fr α φ} {l : List (Fr α φ)} (h : botL (f :: l)) : botL l := by
  cases l with
  | nil => trivial
  | cons g l => exact h

theorem botL_rep {f g : Fr α φ} {l : List (Fr α φ)} (h : botL (f :: l)) (hfg : cOnly appFam f → cOnly appFam g) : botL (g :: l) := by
  cases l with
  | nil => exact hfg h
  | cons x l => exact h

theorem botL_app2 {l : List (Fr α φ)} (h : botL l) (hne : l ≠ []) : ∀ pre, botL (pre ++ l)
  | [] => h
  | f :: pre => by
    show botL (f :: (pre ++ l))
    rw [botL_cons (by simp [hne])]
    exact botL_app2 h hne pre

theorem bot_reach {A : App α φ δ χ} {ad : δ} {f : φ} {s : SSt α φ δ} (h : SR A ad f s) (t : Nat) : botL (s.stk t) := by
  revert t
  refine Reach.induct (fun s => ∀ t, botL (s.stk t)) ?_ ?_ h
  · intro t
    simp only [Core.init, St.stk, upd]
    split <;> trivial
  · intro s l s' hr q hs u
    cases l with
    | tick n => rw [step_tick _ s s' n hs]; exact q u
    | th t ch =>
      by_cases hu : u = t
      · subst hu
        have hq := q u
        rcases step_cl hs with ⟨f, rest, d', a, hexc, hold, hstep, hdata, hact, -⟩ | ⟨f, rest, hexc, hold, hcs, hdata, -⟩ |
          ⟨e, hexc, hst, -, -, hdata, -⟩ |
          ⟨e, f, k, rest, hexc, hold, hf, hst, hexc', hdata, -⟩ | ⟨e, f, rest, hexc, hold, hf, hst, -, hdata, -⟩ |
          ⟨e, g, g', rest, hexc, hold, hg, hst, hexc', hdata, -⟩ | ⟨e, g, rest, hexc, hold, hg, hst, -, hdata, -⟩ | ⟨hold, hst, hexc', hdata, -⟩
        · rw [hold] at hq
          by_cases hrest : rest = []
          · subst hrest
            have hf : appFam f := hq
            cases client_cs hstep with
            | app g ad sa hA =>
              cases sa <;> simp only [liftAct, ActTo] at hact <;> (try rw [hact.1]) <;> first | trivial | (rw [hold]; exact hq)
            | sync f sd a hS => cases f <;> first | exact hf.elim | exact hS.not_app.elim
          · have hq' := (botL_cons hrest).1 hq
            cases a <;> simp only [ActTo] at hact <;> rw [hact.1]
            · exact botL_app2 hq' hrest [_]
            · exact botL_app2 hq' hrest [_, _]
            · exact botL_app2 hq' hrest [_, _]
            · exact hq'
            · exact hq'
            · rw [hold]; exact hq
        · rw [hold] at hq
          have hrest : rest ≠ [] := by rintro rfl; exact hq
          have hq' := (botL_cons hrest).1 hq
          rcases hcs with ⟨new, h, hst, hexc', hrv⟩ | ⟨v, h, hst, hrv, hexc'⟩ | ⟨e, rfl, hst, hexc'⟩ | ⟨hub, hst, hexc'⟩
          · rw [hst]; exact botL_app2 hq' hrest _
          · rw [hst]; exact hq'
          · rw [hst]; exact hq'
          · rw [hst, hold]; exact hq
        · rw [hst]; exact hq
        · rw [hold] at hq
          have hrest : rest ≠ [] := by rintro rfl; exact hq
          rw [hst]; exact botL_app2 ((botL_cons hrest).1 hq) hrest [_, _]
        · rw [hold] at hq; rw [hst]; exact botL_tail hq
        · rw [hold] at hq; rw [hst]
          refine botL_rep hq ?_
          intro hg'
          have hg' : appFam g := hg'
          cases g <;> first | exact hg'.elim | skip
          simp only [client, sThrow, Option.map_eq_some_iff] at hg
          obtain ⟨x, -, rfl⟩ := hg
          trivial
        · rw [hold] at hq; rw [hst]; exact botL_tail hq
        · rw [hst]; trivial
      · rcases hr.stk_oth hu hs with ⟨h, -⟩ | ⟨f, rest, h, -, h4, h5, h6⟩
        · rw [h]; exact q u
        · rw [h5]
          exact (codes' hr).code t (.spawnIn u f) (by rw [h]; simp) u

/-! ## The weights -/

def b1 (q p : Nat) : Nat := if q = p then 1 else 0

def cn (p : Nat) (l : List (Kont α)) : Nat := lsum (fun c => b1 c.p p) l

def CB (p nst : Nat) (st : Nat → FSt α) : Nat := nsum nst fun q => cn p (st q).cbs

/-- Which account: launches, objects, objects not being run, calls, attachments. -/
inductive Tab
  | L | O | R | U | A

namespace Tab
def l1 : Tab → Nat
  | .A => 0 | _ => 1
def d1 : Tab → Nat
  | .L => 0 | .O => 1 | .R => 1 | .U => 0 | .A => 0
def i0 : Tab → Nat
  | .L => 0 | .O => 1 | .R => 0 | .U => 0 | .A => 0
def i1 : Tab → Nat
  | .L => 0 | .O => 0 | .R => 1 | .U => 0 | .A => 0
def r1 : Tab → Nat
  | .L => 0 | .O => 1 | .R => 1 | .U => 0 | .A => 0
def run0 : Tab → Nat
  | .L => 0 | .O => 0 | .R => 1 | .U => 1 | .A => 0
def run1 : Tab → Nat
  | .L => 0 | .O => 0 | .R => 1 | .U => 0 | .A => 0
def dt : Tab → Nat
  | .L => 0 | .O => 1 | .R => 1 | .U => 0 | .A => 0
def tw : Tab → Nat
  | .L => 0 | .O => 1 | .R => 1 | .U => 1 | .A => 0
def tl : Tab → Nat
  | .L => 0 | .O => 1 | .R => 0 | .U => 0 | .A => 0
def tr : Tab → Nat
  | .L => 0 | .O => 1 | .R => 1 | .U => 0 | .A => 0
def eq : Tab → Bool
  | .L => true | .O => true | .R => false | .U => false | .A => false
end Tab

def NK.lw (T : Tab) (p : Nat) : NK α → Nat
  | .fut _ l => T.l1 * cn p l
  | _ => 0

def LK.lw (T : Tab) (p : Nat) : LK α → Nat
  | .sr _ dn l => T.d1 * cn p dn + T.l1 * cn p l
  | _ => 0

/-- Amount for the task being launched. -/
def LK.own (T : Tab) : LK α → Nat
  | .as => 1
  | _ => T.l1

def fw (T : Tab) (p : Nat) : SFrame α φ → Nat
  | .naIn K => K.lw T p
  | .nLoop K _ => K.lw T p
  | .nCall K _ _ _ => K.lw T p
  | .nAfter K _ _ _ => K.lw T p
  | .srUnl _ l => T.l1 * cn p l
  | .srLoop _ dn l => T.d1 * cn p dn + T.l1 * cn p l
  | .srDtor _ dn => T.d1 * cn p dn
  | .scIn _ c => b1 c.p p
  | .laIn K c => K.own T * b1 c.p p + K.lw T p
  | .laRet K _ => K.lw T p
  | .laInl K c => T.i0 * b1 c.p p + K.lw T p
  | .ftRun q _ => T.run0 * b1 q p
  | .ftSet q => T.run1 * b1 q p
  | .ftDone q => T.run1 * b1 q p
  | .ftThrew q _ => T.run1 * b1 q p
  | .ftExc q _ => T.run1 * b1 q p
  | .ftEnd q => T.run1 * b1 q p
  | .ftFin q => T.run1 * b1 q p
  | .ftDtor q _ => T.dt * b1 q p
  | .pdIn q => T.dt * b1 q p
  | .pdEnd q => T.dt * b1 q p
  | .term (some q) => T.dt * b1 q p
  | _ => 0

def fx (T : Tab) (p : Nat) : SFrame α φ → Val → Nat
  | .laRet _ c, v => if v = .bool true then 0 else T.r1 * b1 c.p p
  | .laInl _ c, _ => T.i1 * b1 c.p p
  | _, _ => 0

def ktw (w p : Nat) : STask α → Nat
  | .fut q _ => w * b1 q p
  | _ => 0

def evO (T : Tab) (p : Nat) : SEv → Nat
  | .launched _ q _ _ _ => match T with | .L => b1 q p | _ => 0
  | .dropped _ q => match T with | .O => b1 q p | .R => b1 q p | _ => 0
  | .bodyStart _ q => match T with | .U => b1 q p | _ => 0
  | .attached _ _ q => match T with | .A => b1 q p | _ => 0
  | _ => 0

def evI (T : Tab) (p : Nat) : SEv → Nat
  | .called _ q => match T with | .R => b1 q p | .U => b1 q p | _ => 0
  | .freed _ q => match T with | .O => b1 q p | .R => b1 q p | _ => 0
  | _ => 0

def ownI (p nst : Nat) (st : Nat → FSt α) : Nat := if p < nst ∧ (st p).owner = .pkg then 1 else 0

def wts (δ φ : Type) (T : Tab) (p : Nat) : Wts (STask α) (SFrame α φ) (Data α δ) where
  eq := T.eq
  wt := ktw T.tw p
  wl := ktw T.tl p
  wr := ktw T.tr p
  lo f := fw T p f
  hi f v := fw T p f + fx T p f v
  hx f := fw T p f
  out d := T.l1 * CB p d.sd.nst d.sd.st + lsum (evO T p) d.sd.slog
  inn d := ownI p d.sd.nst d.sd.st + lsum (evI T p) d.sd.slog

/-! ## Steps -/

theorem run_hi {T : Tab} {p q : Nat} {l : Fr α φ} {f : SFrame α φ} {v : Val} (h : Adj l (.client f)) (hf : runFam q f) :
    Rel T.eq (l.hi (wts δ φ T p) v) (l.lo (wts δ φ T p) + T.run1 * b1 q p) := by
  cases l with
  | client l =>
    cases l
    case laInl K c =>
      have h : runFam c.p f := h
      have : c.p = q := by
        cases f <;> first | exact False.elim hf | exact h.symm.trans hf
      subst this
      cases T <;> simp [Frame.hi, Frame.lo, wts, fw, fx, Tab.i0, Tab.i1, Tab.run1, Rel, Tab.eq] <;> omega
    case laRet K c => exact False.elim h
    all_goals cases T <;> simp [Frame.hi, Frame.lo, wts, fx, Tab.run1, Rel, Tab.eq]
  | core l =>
    cases l
    case ran c k r =>
      cases k
      case fut q' a =>
        have h : runFam q' f := h
        have : q' = q := by
          cases f <;> first | exact False.elim hf | exact h.symm.trans hf
        subst this
        cases T <;> simp [Frame.hi, Frame.lo, CF.tw, CF.lw, wts, ktw, Tab.tl, Tab.tr, Tab.run1, Rel, Tab.eq]
      all_goals cases T <;> simp [Frame.hi, Frame.lo, CF.tw, CF.lw, wts, ktw, Tab.run1, Rel, Tab.eq]
    case dispRan k =>
      cases k
      case fut q' a =>
        have h : runFam q' f := h
        have : q' = q := by
          cases f <;> first | exact False.elim hf | exact h.symm.trans hf
        subst this
        cases T <;> simp [Frame.hi, Frame.lo, CF.tw, CF.lw, wts, ktw, Tab.tl, Tab.tr, Tab.run1, Rel, Tab.eq]
      all_goals cases T <;> simp [Frame.hi, Frame.lo, CF.tw, CF.lw, wts, ktw, Tab.run1, Rel, Tab.eq]
    all_goals cases T <;> simp [Frame.hi, Frame.lo, CF.tw, wts, Tab.run1, Rel, Tab.eq]

theorem oth_hi {T : Tab} {p : Nat} {l : Fr α φ} {f : SFrame α φ} {v : Val} (h : Adj l (.client f)) (hf : ∀ q, ¬ runFam q f) :
    l.hi (wts δ φ T p) v = l.lo (wts δ φ T p) ∧ l.hx (wts δ φ T p) = l.lo (wts δ φ T p) := by
  cases l with
  | client l =>
    cases l
    case laInl K c => exact absurd h (hf _)
    case laRet K c => exact False.elim h
    all_goals exact ⟨by simp [Frame.hi, Frame.lo, wts, fx], rfl⟩
  | core l =>
    cases l
    case ran c k r =>
      cases k
      case fut q' a => exact absurd h (hf _)
      all_goals exact ⟨rfl, rfl⟩
    case dispRan k =>
      cases k
      case fut q' a => exact absurd h (hf _)
      all_goals exact ⟨rfl, rfl⟩
    all_goals exact ⟨rfl, rfl⟩

theorem entry_fw {T : Tab} {p : Nat} (a : SApi α) (v : Val) : fw T p (a.entry : SFrame α φ) = 0 ∧ fx T p (a.entry : SFrame α φ) v = 0 := by
  cases a <;> exact ⟨rfl, rfl⟩

theorem CB_set {p q nst : Nat} {st : Nat → FSt α} {x : FSt α} (h : q < nst) :
    CB p nst (set st q x) + cn p (st q).cbs = CB p nst st + cn p x.cbs := by
  have := nsum_one (f := fun i => cn p (st i).cbs) (g := fun i => cn p (set st q x i).cbs) h fun i hi => by simp [set_ne _ _ hi]
  simpa [CB] using this

theorem CB_same {p q nst : Nat} {st : Nat → FSt α} {x : FSt α} (h : x.cbs = (st q).cbs) : CB p nst (set st q x) = CB p nst st := by
  unfold CB
  refine nsum_congr fun i _ => ?_
  by_cases hi : i = q
  · subst hi; simp [h]
  · simp [set_ne _ _ hi]

theorem ownI_set {p q nst : Nat} {st : Nat → FSt α} {x : FSt α} (h : x.owner = (st q).owner) : ownI p nst (set st q x) = ownI p nst st := by
  unfold ownI
  by_cases hi : p = q
  · subst hi; simp [h]
  · simp [set_ne _ _ hi]

theorem CB_new {p nst : Nat} {st : Nat → FSt α} {x : FSt α} (h : x.cbs = []) : CB p (nst + 1) (set st nst x) = CB p nst st := by
  simp only [CB, nsum, set_same, h]
  have := nsum_congr (N := nst) (f := fun i => cn p (set st nst x i).cbs) (g := fun i => cn p (st i).cbs) fun i hi => by
    simp [set_ne _ _ (Nat.ne_of_lt hi)]
  rw [this]; rfl

theorem ownI_pkg {p nst : Nat} {st : Nat → FSt α} {x : FSt α} (h : x.owner = .pkg) :
    ownI p (nst + 1) (set st nst x) = ownI p nst st + b1 nst p := by
  unfold ownI b1
  by_cases hi : p = nst
  · subst hi; simp [h]
  · have : (p < nst + 1) = (p < nst) := by simp; omega
    simp [set_ne _ _ hi, this, Ne.symm hi]

theorem ownI_oth {p nst : Nat} {st : Nat → FSt α} {x : FSt α} (h : x.owner ≠ .pkg) :
    ownI p (nst + 1) (set st nst x) = ownI p nst st := by
  unfold ownI
  by_cases hi : p = nst
  · subst hi; simp [h]
  · have : (p < nst + 1) = (p < nst) := by simp; omega
    simp [set_ne _ _ hi, this]

/-- Amount on top of the rest of the stack after an action that does not return. -/
def aw (T : Tab) (p : Nat) (rv : Val) (f : SFrame α φ) : Act (STask α) (SFrame α φ) → Nat
  | .goto g => fw T p g + fx T p g rv
  | .push g k => fw T p g + fx T p g rv + fw T p k
  | .call a k => a.entry.tw (wts (α := α) Unit φ T p) + fw T p k
  | .ret _ => match f with
    | .ftDone q => T.run1 * b1 q p
    | .ftEnd q => T.run1 * b1 q p
    | .ftFin q => T.run1 * b1 q p
    | _ => 0
  | .throw _ => 0
  | .terminate => fw T p f + fx T p f rv

@[simp] theorem cn_nil (p : Nat) : cn p ([] : List (Kont α)) = 0 := rfl
@[simp] theorem cn_cons (p : Nat) (c : Kont α) (l : List (Kont α)) : cn p (c :: l) = b1 c.p p + cn p l := by simp [cn]
@[simp] theorem cn_append (p : Nat) (l l' : List (Kont α)) : cn p (l ++ l') = cn p l + cn p l' := by simp [cn]

local macro "acc" : tactic => `(tactic| (
  simp [aw, fw, fx, LK.own, Tab.l1, Tab.d1, Tab.i0, Tab.i1, Tab.r1, Tab.run0, Tab.run1, Tab.dt, Tab.tw, Tab.eq, Rel, NK.lw, LK.lw, evO, evI,
    SData.ev, SData.setLk, SData.setSt, SData.mkState, SData.relLk, SData.remWaiter, CB_new, ownI_pkg, ownI_oth, CF.tw, CF.lw, Api.entry, wts, ktw, *]
    <;> omega))

set_option maxHeartbeats 4000000 in
theorem ss_acc (T : Tab) (p : Nat) {run destroy : α → φ} {v : View} {d d' : SData α} {rv : Val} {f : SFrame α φ} {a : Act (STask α) (SFrame α φ)}
    (hi : T1I d) (hf : T1F d f) (h : SS run destroy v d rv f d' a) :
    Rel T.eq (aw T p rv f a + (T.l1 * CB p d'.nst d'.st + lsum (evO T p) d'.slog) + (ownI p d.nst d.st + lsum (evI T p) d.slog))
      (fw T p f + fx T p f rv + (T.l1 * CB p d.nst d.st + lsum (evO T p) d.slog) + (ownI p d'.nst d'.st + lsum (evI T p) d'.slog)) := by
  cases h
  case swIn => cases T <;> unfold SData.addWaiter <;> split <;> acc
  case wfAdd => cases T <;> unfold SData.addWaiter <;> split <;> acc
  case swBefore w i k => cases T <;> cases hw : w.lk <;> acc
  case wfBefore w i k _ _ => cases T <;> cases hw : w.lk <;> acc
  case laRet K c =>
    clear hi hf
    by_cases hb : rv = .bool true
    · subst hb
      cases T <;> cases K <;> simp [laNext] <;> acc
    · have hb' : decide (rv ≠ .bool true) = true := by simp [hb]
      rw [hb']
      cases T <;> cases K <;> simp only [laNext, aw, fw, fx, if_neg hb, Tab.l1, Tab.d1, Tab.r1, Tab.dt, Tab.eq, Rel, LK.lw, cn_append, cn_cons, cn_nil] <;>
        simp <;> omega
  case laEnd K c => cases T <;> cases K <;> simp [laNext] <;> acc
  case naIn K => cases T <;> cases K <;> acc
  case nSkip K k l => cases T <;> cases K <;> acc
  case nSig K i k l h => cases T <;> cases K <;> acc
  case nCall K i k l => cases T <;> cases K <;> acc
  case nAfter K i k l => cases T <;> cases K <;> acc
  case laQueue K c id hid h => cases T <;> cases K <;> acc
  case laInl K c id hid h hi => clear hid hi; cases T <;> cases K <;> acc
  case srVal q w =>
    have h1 := CB_set (p := p) (st := d.st) (x := { d.st q with status := .ready, cbs := [] }) (show q < d.nst from hf)
    simp only [cn_nil] at h1
    cases T <;> simp [aw, fw, fx, LK.own, Tab.l1, Tab.eq, Rel, NK.lw, evO, evI, SData.ev, SData.setSt, ownI_set] <;> omega
  case srExn q w =>
    have h1 := CB_set (p := p) (st := d.st) (x := { d.st q with status := .error, cbs := [] }) (show q < d.nst from hf)
    simp only [cn_nil] at h1
    cases T <;> simp [aw, fw, fx, LK.own, Tab.l1, Tab.eq, Rel, NK.lw, evO, evI, SData.ev, SData.setSt, ownI_set] <;> omega
  case scLater q c hl h =>
    have h1 := CB_set (p := p) (st := d.st) (x := { d.st q with cbs := (d.st q).cbs ++ [c] }) (show q < d.nst from hf.1)
    simp only [cn_append, cn_cons, cn_nil] at h1
    cases T <;> simp [aw, fw, fx, LK.own, Tab.l1, Tab.eq, Rel, NK.lw, evO, evI, SData.ev, SData.setSt, ownI_set] <;> omega
  case svVal q w h =>
    cases T <;> simp [aw, fw, fx, LK.own, Tab.l1, Tab.eq, Rel, evO, evI, SData.ev, SData.setSt, CB_same, ownI_set] <;> omega
  case svExn q w h =>
    cases T <;> simp [aw, fw, fx, LK.own, Tab.l1, Tab.eq, Rel, evO, evI, SData.ev, SData.setSt, CB_same, ownI_set] <;> omega
  case poFut q p' h hr =>
    cases T <;> simp [aw, fw, fx, LK.own, Tab.l1, Tab.eq, Rel, evO, evI, SData.ev, SData.setSt, CB_same, ownI_set] <;> omega
  all_goals cases T <;> acc

theorem fx_zero {T : Tab} {p : Nat} {f : SFrame α φ} {v : Val} (h1 : ∀ K c, f ≠ .laRet K c) (h2 : ∀ K c, f ≠ .laInl K c) : fx T p f v = 0 := by
  cases f <;> first | rfl | exact absurd rfl (h1 _ _) | exact absurd rfl (h2 _ _)

theorem lin_step {T : Tab} {p : Nat} {A : App α φ δ χ} {ad : δ} {f0 : φ} {s : SSt α φ δ} {t : Nat} {ch : Ch χ} {f : SFrame α φ}
    {rest : List (Fr α φ)} {d' : Data α δ} {a : Act (STask α) (SFrame α φ)} (hj : SR A ad f0 s)
    (hst : s.stk t = .client f :: rest) (hs : (client A).step (s.view t) s.data f (s.thr t).rv ch = some (d', a)) :
    Rel T.eq (newW (wts δ φ T p) f (s.thr t).rv rest a + (wts δ φ T p).out d' + (wts δ φ T p).inn s.data)
      ((wts δ φ T p).hi f (s.thr t).rv + losum (wts δ φ T p) rest + (wts δ φ T p).out s.data + (wts δ φ T p).inn d') := by
  have hch := (stk_ok hj).chain t
  rw [hst] at hch
  have hty := ty1_top hj hst
  have hbot := bot_reach hj t
  rw [hst] at hbot
  cases client_cs hs with
  | app g ad sa hA =>
    refine Rel.rfl' ?_
    have hr : ∀ v, topHi (wts δ φ T p) v rest = losum (wts δ φ T p) rest ∧ topHx (wts δ φ T p) rest = losum (wts δ φ T p) rest := by
      intro v
      cases rest with
      | nil => exact ⟨rfl, rfl⟩
      | cons l rest =>
        have := oth_hi (δ := δ) (T := T) (p := p) (v := v) hch.1 (fun _ => id)
        simp [topHi, topHx, this]
    cases sa <;> simp only [liftAct, newW]
    · rfl
    · simp [wts, fw, fx]
    · rename_i a k
      have : (mapApi a).entry.tw (wts (α := α) δ φ T p) = 0 := by cases a <;> rfl
      rw [this]
      simp [wts, fw, fx]
    · rename_i a k
      have h := entry_fw (φ := φ) (T := T) (p := p) a (s.thr t).rv
      have e : (wts δ φ T p).hi a.entry (s.thr t).rv = 0 := by
        show fw T p a.entry + fx T p a.entry _ = 0
        rw [h.1, h.2]
      rw [e]
      simp [wts, fw, fx]
    · rw [(hr _).1]; simp [wts, fw, fx]
    · rw [(hr .unit).2]; simp [wts, fw, fx]
    · rfl
  | sync f sd a hS =>
    have h1 := ss_acc T p (ty1_I hj) hty hS
    have hne : rest ≠ [] := by
      rintro rfl
      have hbot : appFam f := hbot
      cases f <;> first | exact hbot.elim | exact hS.not_app.elim
    cases a with
    | goto g => exact h1.of (by simp only [aw, newW, wts]; omega)
    | push g k => exact h1.of (by simp only [aw, newW, wts]; omega)
    | call a k =>
      have e : a.entry.tw (wts (α := α) Unit φ T p) = a.entry.tw (wts (α := α) δ φ T p) := by cases a <;> rfl
      refine h1.of ?_
      simp only [aw, newW, e]
      simp only [wts]; omega
    | terminate => exact h1.of (by simp only [aw, newW, wts]; omega)
    | throw e =>
      cases rest with
      | nil => exact absurd rfl hne
      | cons l rest =>
        have h2 := oth_hi (δ := δ) (T := T) (p := p) (v := .unit) hch.1 (no_throw hs).2.1
        refine h1.of ?_
        simp only [aw, newW, topHx, losum_cons, h2.2]
        simp only [wts]; omega
    | ret v =>
      cases rest with
      | nil => exact absurd rfl hne
      | cons l rest =>
        by_cases hr : ∃ q, runFam q f
        · obtain ⟨q, hr⟩ := hr
          have h2 := run_hi (δ := δ) (T := T) (p := p) (v := v) hch.1 hr
          have e : aw T p (s.thr t).rv f (.ret v) = T.run1 * b1 q p := by
            generalize hx : (.ret v : Act (STask α) (SFrame α φ)) = a at hS
            generalize sd = d1 at hS
            cases hS <;> first
              | exact False.elim hr
              | (cases hx; done)
              | (cases (show _ = q from hr); rfl)
          refine (h1.add h2).of ?_
          simp only [newW, topHi, losum_cons, e]
          simp only [wts]; omega
        · have hr : ∀ q, ¬ runFam q f := fun q h => hr ⟨q, h⟩
          have h2 := oth_hi (δ := δ) (T := T) (p := p) (v := v) hch.1 hr
          have e : aw T p (s.thr t).rv f (.ret v) = 0 := by
            cases f <;> first | rfl | exact absurd rfl (hr _)
          refine h1.of ?_
          simp only [newW, topHi, losum_cons, h2.1, e]
          simp only [wts]; omega

theorem lin_pop {T : Tab} {p : Nat} {l : Fr α φ} {f : CF (STask α) (SFrame α φ)} {v : Val} (h : Adj l (.core f)) (hv : f.popV v) :
    Rel T.eq (l.hi (wts δ φ T p) v) (f.tw (wts δ φ T p) + l.lo (wts δ φ T p)) := by
  have any : anyF (α := α) (.core f) → f.tw (wts δ φ T p) = 0 := by
    intro ha
    cases f <;> first | rfl | exact False.elim hv | skip
    case destroyList => rw [show _ = [] from hv.1]; rfl
    case invLook i k o => cases k <;> first | rfl | exact False.elim ha
  cases l with
  | client l =>
    cases l
    case laRet K c =>
      replace h : invFam (.fut c.p c.body) f := h
      cases f <;> first | exact False.elim h | exact False.elim hv | skip
      case release c' fn w =>
        replace h : w = .bool true := h
        replace hv : v = w := hv
        subst hv; subst h
        refine Rel.rfl' ?_
        simp [Frame.hi, Frame.lo, CF.tw, CF.lw, wts, fx]
      case destroyList c' l fn w =>
        obtain ⟨rfl, rfl⟩ := hv
        replace h : v = .bool true := h
        subst h
        refine Rel.rfl' ?_
        simp [Frame.hi, Frame.lo, CF.tw, CF.lw, wts, fx]
      case invLook i k o =>
        obtain ⟨rfl, rfl⟩ := hv
        obtain ⟨rfl, -⟩ := h
        cases T <;> simp [Frame.hi, Frame.lo, CF.tw, CF.lw, wts, fx, ktw, Tab.r1, Tab.tw, Rel, Tab.eq] <;> omega
    case laInl K c => exact False.elim h
    case app g =>
      rw [any h]
      exact Rel.rfl' (by simp [Frame.hi, Frame.lo, wts, fw, fx])
    case nAfter K i k l =>
      have h : notFam i f := h
      have : f.tw (wts δ φ T p) = 0 := by
        cases f <;> first | exact False.elim h | exact False.elim hv | rfl | skip
        case destroyList => rw [show _ = [] from hv.1]; rfl
        case invLook i k o => rw [h.2.1]; rfl
      rw [this]
      exact Rel.rfl' (by simp [Frame.hi, Frame.lo, wts, fx])
    case swAfter w i k =>
      have h : blkFam f := h
      have : f.tw (wts δ φ T p) = 0 := by
        cases f <;> first | exact False.elim h | exact False.elim hv | rfl
      rw [this]
      exact Rel.rfl' (by simp [Frame.hi, Frame.lo, wts, fx])
    case wfAfter w i k e =>
      have h : blkFam f := h
      have : f.tw (wts δ φ T p) = 0 := by
        cases f <;> first | exact False.elim h | exact False.elim hv | rfl
      rw [this]
      exact Rel.rfl' (by simp [Frame.hi, Frame.lo, wts, fx])
    all_goals exact False.elim h
  | core l =>
    have h' : anyF (α := α) (.core f) ∧ l.tw (wts δ φ T p) = l.lw (wts δ φ T p) := by
      cases l <;> first
        | exact ⟨h, rfl⟩
        | exact False.elim h
        | (rename_i k; cases k <;> first | exact False.elim h | exact ⟨h, rfl⟩)
        | (rename_i k _; cases k <;> first | exact False.elim h | exact ⟨h, rfl⟩)
    refine Rel.rfl' ?_
    simp only [Frame.hi, Frame.lo, h'.2, any h'.1]; omega

theorem lin_unw {T : Tab} {p : Nat} {l : Fr α φ} {f : CF (STask α) (SFrame α φ)} (h : Adj l (.core f)) :
    Rel T.eq (l.hx (wts δ φ T p)) (l.lo (wts δ φ T p)) := by
  cases l with
  | client l => exact Rel.rfl' rfl
  | core l =>
    have h' : l.tw (wts δ φ T p) = l.lw (wts δ φ T p) := by
      cases l <;> first
        | rfl
        | (rename_i k; cases k <;> first | exact False.elim h | rfl)
        | (rename_i k _; cases k <;> first | exact False.elim h | rfl)
    exact Rel.rfl' h'

theorem lin_cpop {T : Tab} {p : Nat} {A : App α φ δ χ} {g : SFrame α φ} {e : Exn} {l : Fr α φ} (hn : ¬ nt (α := α) (.client g))
    (hg : sThrow A.onThrow g e = none) (h : Adj l (.client g)) :
    Rel T.eq (l.hx (wts δ φ T p)) ((wts δ φ T p).hx g + l.lo (wts δ φ T p)) := by
  have hz : fw T p g = 0 ∧ ∀ q, ¬ runFam q g := by
    cases g <;> first
      | exact absurd trivial hn
      | exact ⟨rfl, fun _ => id⟩
      | (cases hg; done)
  have h2 := oth_hi (δ := δ) (T := T) (p := p) (v := .unit) h hz.2
  refine Rel.rfl' ?_
  rw [h2.2]
  show _ = fw T p g + _
  rw [hz.1]; omega

def lin (A : App α φ δ χ) (ad : δ) (f0 : φ) (T : Tab) (p : Nat) : Lin (client A) (SR A ad f0) (stk A ad f0) where
  toWts := wts δ φ T p
  code := appFam
  code_hi {f v} h := by cases f <;> first | rfl | exact False.elim h
  code_ok h := codes' h
  run k v := by
    cases k
    case fut q a => cases T <;> simp [client, wts, fw, fx, ktw, Rel, Tab.eq, Tab.run0, Tab.tl, Tab.tw]
    all_goals exact Rel.rfl' rfl
  destroy k v := by
    cases k
    case fut q a => cases T <;> simp [client, wts, fw, fx, ktw, Rel, Tab.eq, Tab.dt, Tab.tw]
    all_goals exact Rel.rfl' rfl
  destroyR k v := by
    cases k
    case fut q a => cases T <;> simp [client, wts, fw, fx, ktw, Rel, Tab.eq, Tab.dt, Tab.tr]
    all_goals exact Rel.rfl' rfl
  bot := by
    intro s t pre f hj hst
    have := bot_reach hj t
    rw [hst] at this
    have := botL_app this
    cases f with
    | client g => cases g <;> first | exact False.elim this | exact ⟨_, rfl, rfl⟩
    | core g => exact False.elim this
  step hj _ hst hs := lin_step hj hst hs
  pop h hv := lin_pop h hv
  unw h _ := lin_unw h
  catch' := by
    intro g e g' hn hg
    have hg : sThrow A.onThrow g e = some g' := hg
    cases g <;> first
      | exact absurd trivial hn
      | (cases hg; done)
      | (have hg := Option.some.inj hg; subst hg; cases T <;> simp [wts, fw, fx, Rel, Tab.eq]; done)
      | skip
    simp only [sThrow, Option.map_eq_some_iff] at hg
    obtain ⟨x, -, rfl⟩ := hg
    exact Rel.rfl' rfl
  cpop hn hg h := lin_cpop hn hg h

theorem lin_ok {A : App α φ δ χ} {ad : δ} {f0 : φ} {s : SSt α φ δ} (h : SR A ad f0 s) (T : Tab) (p : Nat) : (lin A ad f0 T p).Ok s :=
  (lin A ad f0 T p).sound (fun _ h => h) rfl (Rel.rfl' rfl) h

end
end Sync
end Itc
