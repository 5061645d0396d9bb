import Verif.Sync.Lin

/-!
# Accounting for functors (proof infrastructure, no claims)

For a weight of functors: what is still in callback lists, queues and frames, either until the functor is called or until it is destroyed.
Only the steps of the application have to be examined.
-/
namespace Itc
namespace Sync
open Core
section
variable {α φ δ χ : Type}

structure AW (α φ δ : Type) where
  /-- 1: a functor counts until it is destroyed, 0: until it is called. -/
  o : Nat
  u : Nat
  ou : o + u = 1
  w : α → Nat
  g : φ → Nat
  out : δ → Nat
  inn : δ → Nat
  /-- What the call and the destruction of a packaged task of the application use up. -/
  cl : Nat → Nat := fun _ => 0
  fr : Nat → Nat := fun _ => 0

namespace AW
variable (B : AW α φ δ)

def ws (l : List (Kont α)) : Nat := lsum (fun c => B.w c.body) l

def nk : NK α → Nat
  | .fut _ l => B.ws l
  | _ => 0

def lk : LK α → Nat
  | .sr _ dn l => B.o * B.ws dn + B.ws l
  | _ => 0

def fw : SFrame α φ → Nat
  | .app f => B.g f
  | .naIn K => B.nk K
  | .nLoop K _ => B.nk K
  | .nCall K _ _ _ => B.nk K
  | .nAfter K _ _ _ => B.nk K
  | .srUnl _ l => B.ws l
  | .srLoop _ dn l => B.o * B.ws dn + B.ws l
  | .srDtor _ dn => B.o * B.ws dn
  | .scIn _ c => B.w c.body
  | .laIn K c => B.w c.body + B.lk K
  | .laRet K _ => B.lk K
  | .laInl K c => B.o * B.w c.body + B.lk K
  | .ftRun _ a => B.u * B.w a
  | .ftDtor _ a => B.o * B.w a
  | .rtIn p a => B.u * B.w a + B.cl p
  | .dtIn p a => B.o * B.w a + B.fr p
  | .thIn (some _) _ _ _ a => B.w a
  | .asIn _ _ _ a => B.w a
  | _ => 0

def fx : SFrame α φ → Val → Nat
  | .laRet _ c, v => if v = .bool true then 0 else B.o * B.w c.body
  | _, _ => 0

def kt (m : Nat) : STask α → Nat
  | .noop => 0
  | .app a => m * B.w a
  | .fut _ a => m * B.w a

def CB (nst : Nat) (st : Nat → FSt α) : Nat := nsum nst fun q => B.ws (st q).cbs

def ev : SEv → Nat
  | .called _ p => B.cl p
  | .freed _ p => B.fr p
  | _ => 0

def wts : Wts (STask α) (SFrame α φ) (Data α δ) where
  eq := false
  wt := B.kt 1
  wl := B.kt B.o
  wr := B.kt B.o
  lo f := B.fw f
  hi f v := B.fw f + B.fx f v
  hx f := B.fw f
  out d := B.CB d.sd.nst d.sd.st + lsum B.ev d.sd.slog + B.out d.ad
  inn d := B.inn d.ad

def sapi : SApi α → Nat
  | .futThen (some _) _ _ _ a => B.w a
  | .async _ _ _ a => B.w a
  | .runTask p a => B.u * B.w a + B.cl p
  | .dropTask p a => B.o * B.w a + B.fr p
  | _ => 0

def api : Api α φ → Nat
  | .invoke _ a => B.w a
  | .invokePackaged _ a => B.w a
  | .dispatch _ a => B.w a
  | _ => 0

/-- Amount after an action of the application. -/
def sa (f : φ) : SAct α φ → Nat
  | .goto g => B.g g
  | .push g k => B.g g + B.g k
  | .core a k => B.api a + B.g k
  | .sync a k => B.sapi a + B.g k
  | .ret _ => 0
  | .throw _ => 0
  | .terminate => B.g f

end AW

/-- The frame that an action leaves in the place of the frame that acts. -/
def SAct.cont : SAct α φ → Option φ
  | .goto g => some g
  | .push _ k => some k
  | .core _ k => some k
  | .sync _ k => some k
  | _ => none

structure AL (A : App α φ δ χ) (ad0 : δ) (f0 : φ) extends AW α φ δ where
  /-- Code that threads start with; has no weight. -/
  z : φ → Prop
  z_g : ∀ {f}, z f → g f = 0
  z_0 : z f0
  z_step : ∀ {v ad f rv ch ad' sa k}, A.step v ad f rv ch = some (ad', sa) → z f → SAct.cont sa = some k → z k
  z_throw : ∀ {f e f'}, A.onThrow f e = some f' → z f → z f'
  z_code : ∀ {v ad f rv ch ad' a k}, A.step v ad f rv ch = some (ad', .core a k) → ApiOK (fun _ => z) (fun _ => True) a
  run : ∀ a, g (A.run a) ≤ u * w a
  destroy : ∀ a, g (A.destroy a) ≤ o * w a
  throw : ∀ {f e f'}, A.onThrow f e = some f' → g f' ≤ g f
  app : ∀ {s : SSt α φ δ} {t : Nat} {ch : Ch χ} {f : φ} {rest : List (Fr α φ)} {ad' : δ} {sa : SAct α φ}, SR A ad0 f0 s →
    (s.thr t).exc = none → s.stk t = .client (.app f) :: rest → A.step (s.view t) s.data.ad f (s.thr t).rv ch = some (ad', sa) →
    toAW.sa f sa + out ad' + inn s.data.ad ≤ g f + out s.data.ad + inn ad'

variable {A : App α φ δ χ} {ad0 : δ} {f0 : φ}

/-! ## The lowest frame of a thread -/

def zf (z : φ → Prop) : SFrame α φ → Prop
  | .app g => z g
  | _ => False

def botZ (z : φ → Prop) : List (Fr α φ) → Prop
  | [] => True
  | [f] => cOnly (zf z) f
  | _ :: g :: l => botZ z (g :: l)

section bot
variable {z : φ → Prop}

theorem botZ_app {f : Fr α φ} : ∀ {pre : List (Fr α φ)}, botZ z (pre ++ [f]) → cOnly (zf z) f
  | [], h => h
  | [_], h => h
  | _ :: g :: l, h => botZ_app (pre := g :: l) h

theorem botZ_cons {f : Fr α φ} {l : List (Fr α φ)} (h : l ≠ []) : botZ z (f :: l) ↔ botZ z l := by
  cases l with
  | nil => exact absurd rfl h
  | cons g l => exact Iff.rfl

theorem botZ_tail {f : Fr α φ} {l : List (Fr α φ)} (h : botZ z (f :: l)) : botZ z l := by
  cases l with
  | nil => trivial
  | cons g l => exact h

theorem botZ_rep {f g : Fr α φ} {l : List (Fr α φ)} (h : botZ z (f :: l)) (hfg : cOnly (zf z) f → cOnly (zf z) g) : botZ z (g :: l) := by
  cases l with
  | nil => exact hfg h
  | cons x l => exact h

theorem botZ_app2 {l : List (Fr α φ)} (h : botZ z l) (hne : l ≠ []) : ∀ pre, botZ z (pre ++ l)
  | [] => h
  | f :: pre => by
    show botZ z (f :: (pre ++ l))
    rw [botZ_cons (by simp [hne])]
    exact botZ_app2 h hne pre

end bot

theorem AL.codes (B : AL A ad0 f0) {s : SSt α φ δ} (h : SR A ad0 f0 s) : Codes (zf B.z) s := by
  refine Codes.reach ?_ h
  intro v d f rv ch d' a k hs
  have key : ∀ x, (client A).step v d f rv ch = some (d', x) → x = .call a k → ApiOK (fun _ g => zf B.z g) (fun _ => True) a := by
    intro x hs hx
    cases client_cs hs with
    | app g ad sa hA =>
      clear hs
      cases sa <;> simp [liftAct] at hx
      obtain ⟨rfl, -⟩ := hx
      rename_i a' k'
      have := B.z_code hA
      clear hA
      cases a' <;> simp only [mapApi, ApiOK] at this ⊢ <;> first | trivial | exact this | skip
      intro f hf u
      simp only [Option.mem_def, Option.map_eq_some_iff] at hf
      obtain ⟨g, hg, rfl⟩ := hf
      exact this g hg u
    | sync f sd x hS =>
      cases hS
      case laRet K c => exact (laNext_call hx).elim
      case laEnd K c => exact (laNext_call hx).elim
      all_goals first | (cases hx; done) | (cases hx; trivial)
  exact key _ hs rfl

theorem AL.bot (B : AL A ad0 f0) {s : SSt α φ δ} (h : SR A ad0 f0 s) (t : Nat) : botZ B.z (s.stk t) := by
  revert t
  refine Reach.induct (fun s => ∀ t, botZ B.z (s.stk t)) ?_ ?_ h
  · intro t
    simp only [Core.init, St.stk, upd]
    split
    · exact B.z_0
    · trivial
  · intro s l s' hr q hs u
    cases l with
    | tick n => rw [step_tick _ s s' n hs]; exact q u
    | th t ch =>
      by_cases hu : u = t
      · subst hu
        have hq := q u
        rcases step_cl hs with ⟨f, rest, d', a, hexc, hold, hstep, hdata, hact, -⟩ | ⟨f, rest, hexc, hold, hcs, hdata, -⟩ |
          ⟨e, hexc, hst, -, -, hdata, -⟩ |
          ⟨e, f, k, rest, hexc, hold, hf, hst, hexc', hdata, -⟩ | ⟨e, f, rest, hexc, hold, hf, hst, -, hdata, -⟩ |
          ⟨e, g, g', rest, hexc, hold, hg, hst, hexc', hdata, -⟩ | ⟨e, g, rest, hexc, hold, hg, hst, -, hdata, -⟩ | ⟨hold, hst, hexc', hdata, -⟩
        · rw [hold] at hq
          by_cases hrest : rest = []
          · subst hrest
            have hf : zf B.z f := hq
            cases client_cs hstep with
            | app g ad sa hA =>
              have hz : ∀ k, SAct.cont sa = some k → B.z k := fun k hk => B.z_step hA hf hk
              cases sa <;> simp only [liftAct, ActTo] at hact <;> (try rw [hact.1]) <;> first | trivial | (rw [hold]; exact hq) | exact hz _ rfl
            | sync f sd a hS => cases f <;> first | exact hf.elim | exact hS.not_app.elim
          · have hq' := (botZ_cons hrest).1 hq
            cases a <;> simp only [ActTo] at hact <;> rw [hact.1]
            · exact botZ_app2 hq' hrest [_]
            · exact botZ_app2 hq' hrest [_, _]
            · exact botZ_app2 hq' hrest [_, _]
            · exact hq'
            · exact hq'
            · rw [hold]; exact hq
        · rw [hold] at hq
          have hrest : rest ≠ [] := by rintro rfl; exact hq
          have hq' := (botZ_cons hrest).1 hq
          rcases hcs with ⟨new, h, hst, hexc', hrv⟩ | ⟨v, h, hst, hrv, hexc'⟩ | ⟨e, rfl, hst, hexc'⟩ | ⟨hub, hst, hexc'⟩
          · rw [hst]; exact botZ_app2 hq' hrest _
          · rw [hst]; exact hq'
          · rw [hst]; exact hq'
          · rw [hst, hold]; exact hq
        · rw [hst]; exact hq
        · rw [hold] at hq
          have hrest : rest ≠ [] := by rintro rfl; exact hq
          rw [hst]; exact botZ_app2 ((botZ_cons hrest).1 hq) hrest [_, _]
        · rw [hold] at hq; rw [hst]; exact botZ_tail hq
        · rw [hold] at hq; rw [hst]
          refine botZ_rep hq ?_
          intro hg'
          have hg' : zf B.z g := hg'
          cases g <;> first | exact hg'.elim | skip
          simp only [client, sThrow, Option.map_eq_some_iff] at hg
          obtain ⟨x, hx, rfl⟩ := hg
          exact B.z_throw hx hg'
        · rw [hold] at hq; rw [hst]; exact botZ_tail hq
        · rw [hst]; trivial
      · rcases hr.stk_oth hu hs with ⟨h, -⟩ | ⟨f, rest, h, -, h4, h5, h6⟩
        · rw [h]; exact q u
        · rw [h5]
          exact (B.codes hr).code t (.spawnIn u f) (by rw [h]; simp) u

/-! ## Steps -/

theorem rel_le {x y : Nat} : Rel false x y ↔ x ≤ y := by simp [Rel]

namespace AW
variable (B : AW α φ δ)

theorem adj_hi {l : Fr α φ} {f : SFrame α φ} {v : Val} (h : Adj l (.client f)) :
    l.hi B.wts v = l.lo B.wts ∧ l.hx B.wts = l.lo B.wts := by
  cases l with
  | client l =>
    cases l
    case laRet K c => exact False.elim h
    all_goals exact ⟨by simp [Frame.hi, Frame.lo, wts, fx], rfl⟩
  | core l => cases l <;> exact ⟨rfl, rfl⟩

theorem entry_fw (a : SApi α) (v : Val) : B.fw (a.entry : SFrame α φ) = B.sapi a ∧ B.fx (a.entry : SFrame α φ) v = 0 := by
  cases a <;> first | exact ⟨rfl, rfl⟩ | skip
  case futThen p _ _ _ _ => cases p <;> exact ⟨rfl, rfl⟩

theorem CB_set {q nst : Nat} {st : Nat → FSt α} {x : FSt α} (h : q < nst) :
    B.CB nst (set st q x) + B.ws (st q).cbs = B.CB nst st + B.ws x.cbs := by
  have := nsum_one (f := fun i => B.ws (st i).cbs) (g := fun i => B.ws (set st q x i).cbs) h fun i hi => by simp [set_ne _ _ hi]
  simpa [CB] using this

theorem CB_same {q nst : Nat} {st : Nat → FSt α} {x : FSt α} (h : x.cbs = (st q).cbs) : B.CB nst (set st q x) = B.CB nst st := by
  unfold CB
  refine nsum_congr fun i _ => ?_
  by_cases hi : i = q
  · subst hi; simp [h]
  · simp [set_ne _ _ hi]

theorem CB_new {nst : Nat} {st : Nat → FSt α} {x : FSt α} (h : x.cbs = []) : B.CB (nst + 1) (set st nst x) = B.CB nst st := by
  simp only [CB, nsum, set_same, h]
  have := nsum_congr (N := nst) (f := fun i => B.ws (set st nst x i).cbs) (g := fun i => B.ws (st i).cbs) fun i hi => by
    simp [set_ne _ _ (Nat.ne_of_lt hi)]
  rw [this]; rfl

@[simp] theorem ws_nil : B.ws ([] : List (Kont α)) = 0 := rfl
@[simp] theorem ws_cons (c : Kont α) (l : List (Kont α)) : B.ws (c :: l) = B.w c.body + B.ws l := by simp [ws]
@[simp] theorem ws_append (l l' : List (Kont α)) : B.ws (l ++ l') = B.ws l + B.ws l' := by simp [ws]

/-- Amount on top of the rest of the stack after an action that does not return. -/
def aw (rv : Val) (f : SFrame α φ) : Act (STask α) (SFrame α φ) → Nat
  | .goto g => B.fw g + B.fx g rv
  | .push g k => B.fw g + B.fx g rv + B.fw k
  | .call a k => a.entry.tw B.wts + B.fw k
  | .ret _ => 0
  | .throw _ => 0
  | .terminate => B.fw f + B.fx f rv

local macro "acc" B:term : tactic => `(tactic| (
  simp [AW.aw, AW.fw, AW.fx, AW.nk, AW.lk, SData.ev, SData.setLk, SData.setSt, SData.mkState, SData.relLk, SData.remWaiter, AW.CB_new, CF.tw, CF.lw,
    Api.entry, AW.wts, AW.kt, AW.ev, AW.CB_same, Rel, *] <;> omega))

set_option maxHeartbeats 4000000 in
theorem ss_acc {run destroy : α → φ} (hrun : ∀ a, B.g (run a) ≤ B.u * B.w a) (hdes : ∀ a, B.g (destroy a) ≤ B.o * B.w a)
    {v : View} {d d' : SData α} {rv : Val} {f : SFrame α φ} {a : Act (STask α) (SFrame α φ)} (hf : T1F d f) (hi : T1I d)
    (h : SS run destroy v d rv f d' a) : Rel false (B.aw rv f a + B.CB d'.nst d'.st + lsum B.ev d'.slog) (B.fw f + B.fx f rv + B.CB d.nst d.st + lsum B.ev d.slog) := by
  cases h
  case swIn => refine Rel.rfl' ?_; unfold SData.addWaiter; split <;> acc B
  case wfAdd => refine Rel.rfl' ?_; unfold SData.addWaiter; split <;> acc B
  case swBefore w i k => refine Rel.rfl' ?_; cases hw : w.lk <;> acc B
  case wfBefore w i k _ _ => refine Rel.rfl' ?_; cases hw : w.lk <;> acc B
  case laRet K c =>
    refine Rel.rfl' ?_
    by_cases hb : rv = .bool true
    · subst hb
      cases K <;> simp [laNext, aw, fw, fx, lk]
    · have hb' : decide (rv ≠ .bool true) = true := by simp [hb]
      rw [hb']
      cases K <;> simp [laNext, aw, fw, fx, hb, lk, Nat.mul_add] <;> omega
  case laEnd K c =>
    refine Rel.rfl' ?_
    cases K <;> simp [laNext, aw, fw, fx, lk, Nat.mul_add]
    omega
  case naIn K => exact Rel.rfl' (by cases K <;> acc B)
  case nSkip K k l => exact Rel.rfl' (by cases K <;> acc B)
  case nSig K i k l h => exact Rel.rfl' (by cases K <;> acc B)
  case nCall K i k l => exact Rel.rfl' (by cases K <;> acc B)
  case nAfter K i k l => exact Rel.rfl' (by cases K <;> acc B)
  case srDnext p c l => exact Rel.rfl' (by simp [aw, fw, fx, Nat.mul_add])
  case ftRun p a =>
    refine Rel.of (show Rel false _ _ from (rel_le.2 (hrun a))) ?_
    simp [aw, fw, fx, SData.ev, ev]; omega
  case ftDtor p a =>
    refine Rel.of (show Rel false _ _ from (rel_le.2 (hdes a))) ?_
    simp [aw, fw, fx]; omega
  case laQueue K c id hid h =>
    refine Rel.rfl' ?_
    simp [aw, fw, fx, Api.entry, CF.tw, CF.lw, wts, kt, SData.ev, ev]
  case laInl K c id hid h _ =>
    refine Rel.rfl' ?_
    have : B.w c.body = B.o * B.w c.body + B.u * B.w c.body := by rw [← Nat.add_mul, B.ou, Nat.one_mul]
    simp [aw, fw, fx, SData.ev, ev]; omega
  case srVal q w =>
    have h1 := B.CB_set (st := d.st) (x := { d.st q with status := .ready, cbs := [] }) (show q < d.nst from hf)
    simp only [ws_nil] at h1
    refine Rel.rfl' ?_
    simp [aw, fw, fx, nk, SData.ev, SData.setSt, ev]; omega
  case srExn q w =>
    have h1 := B.CB_set (st := d.st) (x := { d.st q with status := .error, cbs := [] }) (show q < d.nst from hf)
    simp only [ws_nil] at h1
    refine Rel.rfl' ?_
    simp [aw, fw, fx, nk, SData.ev, SData.setSt, ev]; omega
  case scLater q c hl h =>
    have h1 := B.CB_set (st := d.st) (x := { d.st q with cbs := (d.st q).cbs ++ [c] }) (show q < d.nst from hf.1)
    simp only [ws_append, ws_cons, ws_nil] at h1
    refine Rel.rfl' ?_
    simp [aw, fw, fx, nk, SData.ev, SData.setSt, ev]; omega
  case thN => exact Rel.rfl' rfl
  all_goals exact Rel.rfl' (by acc B)

theorem lin_pop {l : Fr α φ} {f : CF (STask α) (SFrame α φ)} {v : Val} (h : Adj l (.core f)) (hv : f.popV v) :
    Rel false (l.hi B.wts v) (f.tw B.wts + l.lo B.wts) := by
  cases l with
  | client l =>
    cases l
    case laRet K c =>
      replace h : invFam (.fut c.p c.body) f := h
      cases f <;> first | exact False.elim h | exact False.elim hv | skip
      case release c' fn w =>
        replace h : w = .bool true := h
        replace hv : v = w := hv
        subst hv; subst h
        refine Rel.rfl' ?_
        simp [Frame.hi, Frame.lo, CF.tw, CF.lw, wts, fx]
      case destroyList c' l fn w =>
        obtain ⟨rfl, rfl⟩ := hv
        replace h : v = .bool true := h
        subst h
        refine Rel.rfl' ?_
        simp [Frame.hi, Frame.lo, CF.tw, CF.lw, wts, fx]
      case invLook i k o =>
        obtain ⟨rfl, rfl⟩ := hv
        obtain ⟨rfl, -⟩ := h
        have : B.o * B.w c.body ≤ B.w c.body := by
          have := B.ou
          rcases (show B.o = 0 ∨ B.o = 1 by omega) with h | h <;> simp [h]
        rw [rel_le]
        simp [Frame.hi, Frame.lo, CF.tw, CF.lw, wts, fx, kt]
        omega
    all_goals (rw [rel_le]; simp [Frame.hi, Frame.lo, wts, fx])
  | core l =>
    have h' : l.tw B.wts = l.lw B.wts := by cases l <;> rfl
    rw [rel_le]
    simp only [Frame.hi, Frame.lo, h']; omega

theorem lin_unw (l : Fr α φ) : Rel false (l.hx B.wts) (l.lo B.wts) := by
  cases l with
  | client l => exact Rel.rfl' rfl
  | core l => exact Rel.rfl' (by cases l <;> rfl)

end AW

theorem AL.lin_step (B : AL A ad0 f0) {s : SSt α φ δ} {t : Nat} {ch : Ch χ} {f : SFrame α φ}
    {rest : List (Fr α φ)} {d' : Data α δ} {a : Act (STask α) (SFrame α φ)} (hj : SR A ad0 f0 s) (he : (s.thr t).exc = none)
    (hst : s.stk t = .client f :: rest) (hs : (client A).step (s.view t) s.data f (s.thr t).rv ch = some (d', a)) :
    Rel false (newW B.wts f (s.thr t).rv rest a + B.wts.out d' + B.wts.inn s.data)
      (B.wts.hi f (s.thr t).rv + losum B.wts rest + B.wts.out s.data + B.wts.inn d') := by
  have hch := (stk_ok hj).chain t
  rw [hst] at hch
  have hty := ty1_top hj hst
  have hr : ∀ v, topHi B.wts v rest = losum B.wts rest ∧ topHx B.wts rest = losum B.wts rest := by
    intro v
    cases rest with
    | nil => exact ⟨rfl, rfl⟩
    | cons l rest =>
      have := B.adj_hi (v := v) hch.1
      simp [topHi, topHx, this]
  cases client_cs hs with
  | app g ad sa hA =>
    have h1 := B.app hj he hst hA
    rw [rel_le]
    cases sa <;> simp only [liftAct, newW, AW.sa] at h1 ⊢
    · simp [AW.wts, AW.fw, AW.fx] at h1 ⊢; omega
    · simp [AW.wts, AW.fw, AW.fx] at h1 ⊢; omega
    · rename_i a k
      have : (mapApi a).entry.tw B.wts = B.api a := by cases a <;> simp [mapApi, Api.entry, CF.tw, CF.lw, AW.wts, AW.kt, AW.api]
      rw [this]
      simp [AW.wts, AW.fw, AW.fx] at h1 ⊢; omega
    · rename_i a k
      have h := B.entry_fw (φ := φ) a (s.thr t).rv
      have e : B.wts.hi a.entry (s.thr t).rv = B.sapi a := by
        show B.fw a.entry + B.fx a.entry _ = _
        rw [h.1, h.2]; rfl
      rw [e]
      simp [AW.wts, AW.fw, AW.fx] at h1 ⊢; omega
    · rw [(hr _).1]; simp [AW.wts, AW.fw, AW.fx] at h1 ⊢; omega
    · rw [(hr .unit).2]; simp [AW.wts, AW.fw, AW.fx] at h1 ⊢; omega
    · simp [AW.wts, AW.fw, AW.fx] at h1 ⊢; omega
  | sync f sd a hS =>
    have h1 := B.ss_acc B.run B.destroy hty (ty1_I hj) hS
    cases a with
    | goto g => exact h1.of (by simp only [AW.aw, newW, AW.wts]; omega)
    | push g k => exact h1.of (by simp only [AW.aw, newW, AW.wts]; omega)
    | call a k =>
      refine h1.of ?_
      simp only [AW.aw, newW]
      simp only [AW.wts]; omega
    | terminate => exact h1.of (by simp only [AW.aw, newW, AW.wts]; omega)
    | throw e => exact h1.of (by simp only [AW.aw, newW, (hr .unit).2]; simp only [AW.wts]; omega)
    | ret v => exact h1.of (by simp only [AW.aw, newW, (hr v).1]; simp only [AW.wts]; omega)

def AL.lin (B : AL A ad0 f0) : Lin (client A) (SR A ad0 f0) (stk A ad0 f0) where
  toWts := B.wts
  code := zf B.z
  code_hi {f v} h := by
    cases f <;> first | exact False.elim h | skip
    show B.g _ + 0 = 0
    rw [B.z_g h]
  code_ok h := B.codes h
  run k v := by
    rw [AW.wts, rel_le]
    have hou := B.ou
    cases k
    · simp [client, AW.fw, AW.fx, AW.kt]
    · rename_i a
      have := B.run a
      have : B.w a = B.o * B.w a + B.u * B.w a := by rw [← Nat.add_mul, B.ou, Nat.one_mul]
      simp [client, AW.fw, AW.fx, AW.kt]; omega
    · rename_i p a
      have : B.w a = B.o * B.w a + B.u * B.w a := by rw [← Nat.add_mul, B.ou, Nat.one_mul]
      simp [client, AW.fw, AW.fx, AW.kt]; omega
  destroy k v := by
    rw [AW.wts, rel_le]
    cases k
    · simp [client, AW.fw, AW.fx, AW.kt]
    · rename_i a
      have := B.destroy a
      have : B.w a = B.o * B.w a + B.u * B.w a := by rw [← Nat.add_mul, B.ou, Nat.one_mul]
      simp [client, AW.fw, AW.fx, AW.kt]; omega
    · rename_i p a
      have : B.w a = B.o * B.w a + B.u * B.w a := by rw [← Nat.add_mul, B.ou, Nat.one_mul]
      simp [client, AW.fw, AW.fx, AW.kt]; omega
  destroyR k v := by
    rw [AW.wts, rel_le]
    cases k
    · simp [client, AW.fw, AW.fx, AW.kt]
    · rename_i a
      have := B.destroy a
      simp [client, AW.fw, AW.fx, AW.kt]; omega
    · simp [client, AW.fw, AW.fx, AW.kt]
  bot := by
    intro s t pre f hj hst
    have := B.bot hj t
    rw [hst] at this
    have := botZ_app this
    cases f with
    | client g =>
      cases g <;> first | exact False.elim this | skip
      exact ⟨_, rfl, B.z_g this⟩
    | core g => exact False.elim this
  step hj he hst hs := B.lin_step hj he hst hs
  pop h hv := B.lin_pop h hv
  unw _ _ := B.lin_unw _
  catch' := by
    intro g e g' hn hg
    have hg : sThrow A.onThrow g e = some g' := hg
    rw [AW.wts, rel_le]
    cases g <;> first
      | exact absurd trivial hn
      | (cases hg; done)
      | (have hg := Option.some.inj hg; subst hg; simp [AW.fw, AW.fx]; done)
      | skip
    simp only [sThrow, Option.map_eq_some_iff] at hg
    obtain ⟨x, hx, rfl⟩ := hg
    have := B.throw hx
    simpa [AW.fw, AW.fx] using this
  cpop := by
    intro g e l hn hg h
    have := (B.adj_hi (v := .unit) h).2
    rw [AW.wts, rel_le] at *
    omega

theorem AL.ok (B : AL A ad0 f0) (h0 : B.out ad0 ≤ B.inn ad0) {s : SSt α φ δ} (h : SR A ad0 f0 s) : B.lin.Ok s := by
  refine B.lin.sound (fun _ h => h) ?_ ?_ h
  · show B.g f0 + 0 = 0
    rw [B.z_g B.z_0]
  · refine rel_le.2 ?_
    show nsum 0 _ + lsum B.ev [] + B.out ad0 ≤ B.inn ad0
    simpa [nsum] using h0

end
end Sync
end Itc
