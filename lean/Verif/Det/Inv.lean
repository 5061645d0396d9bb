import Verif.Det.Model
import Verif.Sync.Waits
import Verif.Sync.Asy
import Verif.Core.Stay

/-!
# The calls inside async / then without a thread id (proof infrastructure, no claims)
-/
namespace Itc
namespace Det
open Core Sync
section
variable {α φ δ χ : Type} {U : DApp α φ δ χ} {u0 : δ} {f0 : φ} {s s' : DSt α φ δ}

/-- Which call a frame waits for. -/
def wt : DFrame α φ → Option (Fr α (DFrame α φ))
  | .dReg r => some (.core (.spawnIn r.n (.app .tIn)))
  | .dId r => some (.core (.regLook (some r.n)))
  | .dCall r _ => some (.core (.detachIn r.n))
  | .dRet r id => some (.client (r.call id).entry)
  | .tWait => some (.core (.regLook none))
  | .tUnreg => some (.core (.waitIn none))
  | .tEnd => some (.core .unreg)
  | _ => none

/-- Steps of the application. -/
inductive DS (U : DApp α φ δ χ) (v : View) (d : DData α δ) (rv : Val) (ch : Ch χ) : DFrame α φ → DData α δ → SAct α (DFrame α φ) → Prop
  | usr (f : φ) (u : δ) (a : DAct α φ) (h : U.step v d.u f rv ch = some (u, a)) : DS U v d rv ch (.usr f) { d with u := u } (liftD a)
  | dIn (r : Req α) : DS U v d rv ch (.dIn r) d (.core (.spawn r.n .tIn) (.dReg r))
  | dReg (r : Req α) : DS U v d rv ch (.dReg r) d (.core (.registerNative r.n) (.dId r))
  | dId (r : Req α) (id : Nat) (h : rv = .nat id) :
      DS U v d rv ch (.dId r) { d with dlog := .made v.tid r.n id :: d.dlog } (.core (.detach r.n) (.dCall r id))
  | dCall (r : Req α) (id : Nat) : DS U v d rv ch (.dCall r id) d (.sync (r.call id) (.dRet r id))
  | dRet (r : Req α) (id p : Nat) (h : rv = .nat p) :
      DS U v d rv ch (.dRet r id) { d with dlog := .returned v.tid id p r :: d.dlog } (.ret (.nat p))
  | bad (f : DFrame α φ) : DS U v d rv ch f d .terminate
  | tIn : DS U v d rv ch .tIn d (.core .registerThis .tWait)
  | tWait : DS U v d rv ch .tWait d (.core .wait .tUnreg)
  | tUnreg : DS U v d rv ch .tUnreg { d with dlog := .left v.tid :: d.dlog } (.core .unregisterThis .tEnd)
  | tEnd : DS U v d rv ch .tEnd d (.ret .unit)

theorem det_ds {v : View} {d d' : DData α δ} {rv : Val} {ch : Ch χ} {f : DFrame α φ} {a : SAct α (DFrame α φ)}
    (h : (detApp U).step v d f rv ch = some (d', a)) : DS U v d rv ch f d' a := by
  by_cases hf : ∃ g, f = .usr g
  · obtain ⟨g, rfl⟩ := hf
    simp only [detApp] at h
    split at h
    · contradiction
    · simp only [Option.some.injEq, Prod.mk.injEq] at h
      obtain ⟨rfl, rfl⟩ := h
      exact .usr _ _ _ ‹_›
  · cases ch <;> cases f <;> simp [detApp, dstep] at h hf
    case dId r => split at h <;> obtain ⟨rfl, rfl⟩ := h <;> first | exact .dId _ _ rfl | exact .bad _
    case dRet r id => split at h <;> obtain ⟨rfl, rfl⟩ := h <;> first | exact .dRet _ _ _ rfl | exact .bad _
    all_goals (obtain ⟨rfl, rfl⟩ := h; constructor)

theorem wt_map (a : Api α φ) : ApiOK (fun _ g => wt g = none) (fun _ => True) (mapD a) := by
  cases a <;> simp [mapD, ApiOK, wt]

theorem wt_act {v : View} {d d' : DData α δ} {rv : Val} {ch : Ch χ} {f : DFrame α φ} {a : SAct α (DFrame α φ)}
    (h : (detApp U).step v d f rv ch = some (d', a)) : SWAct wt a := by
  cases det_ds h
  case usr f u a h =>
    cases a with
    | act a => cases a <;> first | exact ⟨by simp [wt], wt_map _⟩ | simp [liftD, SWAct, wt]
    | det r k => simp [liftD, SWAct, wt]
  all_goals simp [SWAct, wt, mapApi, Api.entry, ApiOK]

def waits (U : DApp α φ δ χ) (f0 : φ) : Waits (client (detApp U)) (.app (.usr f0)) :=
  Sync.waits wt rfl (fun _ => ⟨rfl, rfl⟩) wt_act (by
    intro f e f' h
    cases f <;> simp only [detApp, Option.map_eq_some_iff, reduceCtorEq] at h
    obtain ⟨g, -, rfl⟩ := h
    rfl)

theorem dlog_step {l : Lbl χ} (hs : step (client (detApp U)) s l = some s') : s'.data.ad.dlog = s.data.ad.dlog ∨
    ∃ t ch f rest a, l = .th t ch ∧ (s.thr t).exc = none ∧ s.stk t = .client (.app f) :: rest ∧ DS U (s.view t) s.data.ad (s.thr t).rv ch f s'.data.ad a := by
  cases l with
  | tick n => rw [step_tick _ s s' n hs]; exact .inl rfl
  | th t ch =>
    rcases app_data hs with h | ⟨g, rest, sa, h1, h2, h3⟩
    · exact .inl (by rw [h])
    · exact .inr ⟨t, ch, g, rest, sa, rfl, h1, h2, det_ds h3⟩

theorem DS.grow {v : View} {d d' : DData α δ} {rv : Val} {ch : Ch χ} {f : DFrame α φ} {a : SAct α (DFrame α φ)} (h : DS U v d rv ch f d' a) :
    ∃ es, d'.dlog = es ++ d.dlog := by
  cases h <;> first | exact ⟨[], rfl⟩ | exact ⟨[_], rfl⟩

theorem dlog_mem {l : Lbl χ} (hs : step (client (detApp U)) s l = some s') {e : DEv α} (h : e ∈ s.data.ad.dlog) : e ∈ s'.data.ad.dlog := by
  rcases dlog_step hs with h1 | ⟨t, ch, f, rest, a, -, -, -, h1⟩
  · rw [h1]; exact h
  · obtain ⟨es, he⟩ := h1.grow
    rw [he]; simp [h]

theorem later_dlog (h : Later (client (detApp U)) s s') {e : DEv α} (he : e ∈ s.data.ad.dlog) : e ∈ s'.data.ad.dlog :=
  h.ind (P := fun s => e ∈ s.data.ad.dlog) (fun hs h => dlog_mem hs h) he

theorem later_ext (h : Later (client (detApp U)) s s') : Ext s.data.sd s'.data.sd :=
  h.ind (P := fun x => Ext s.data.sd x.data.sd) (fun hs h => h.trans (step_ext hs)) (.refl _)

/-- The frame that waits was put there by the step that made the call. -/
theorem ent {t : Nat} {a : Fr α (DFrame α φ)} {k : DFrame α φ} {rest : List (Fr α (DFrame α φ))} {sp s0 : DSt α φ δ} {f : SFrame α (DFrame α φ)}
    (h : CalledAt (client (detApp U)) { ad := { u := u0 } } (.app (.usr f0)) t a (.app k) rest sp s0 f) :
    ∃ g ch sa, f = .app g ∧ DS U (sp.view t) sp.data.ad (sp.thr t).rv ch g s0.data.ad sa ∧ (liftAct sa).cont = some (.app k) ∧ sp.term = false ∧ (sp.thr t).exc = none ∧
      s0.loc = sp.loc ∧ s0.log = sp.log := by
  obtain ⟨h1, h2, h3, ch, b, hs, h4, h5⟩ := h
  obtain ⟨g, sa, rfl, rfl, h6⟩ := app_cont h4 h5
  have : sp.term = false ∧ (sp.thr t).exc = none ∧ s0.loc = sp.loc ∧ s0.log = sp.log := by
    refine ⟨?_, ?_⟩
    · simp only [step] at hs; split at hs; contradiction; rename_i h; simp at h; exact h.2
    · cases step_cl hs with
      | cl f r0 d' b hexc hold hstep hdata hact hlog hctx hcb hloc => exact ⟨hexc, hloc, hlog⟩
      | core f r0 hexc hold => rw [h2] at hold; cases hold
      | halt e hexc hst => rw [h2, h3] at hst; simp at hst
      | task e f k' r0 hexc hold => rw [h2] at hold; cases hold
      | cpop e f r0 hexc hold => rw [h2] at hold; cases hold
      | «catch» e g g' r0 hexc hold hg hst' => rw [h2] at hold; cases hold; rw [h3] at hst'; have := congrArg List.length hst'; simp at this
      | pop e g r0 hexc hold hg hst' => rw [h2] at hold; cases hold; rw [h3] at hst'; have := congrArg List.length hst'; simp at this; omega
      | fin hold hst' => rw [h2] at hold; cases hold
  exact ⟨g, ch, sa, rfl, det_ds h6, h5, this⟩

abbrev DAfter (U : DApp α φ δ χ) (u0 : δ) (f0 : φ) := AfterCall (client (detApp U)) ({ ad := { u := u0 } } : Data α (DData α δ)) (.app (.usr f0))

theorem after (hr : DR U u0 f0 s) {t : Nat} {k : DFrame α φ} {rest : List (Fr α (DFrame α φ))} {a : Fr α (DFrame α φ)}
    (hst : s.stk t = .client (.app k) :: rest) (hk : wt k = some a) : DAfter U u0 f0 t a (.app k) rest s := by
  have hw : (waits U f0).W (.app k) = some a := hk
  rcases (waits U f0).sound hr (pre := []) (by rw [hst]; rfl) hw with h | h
  · exact absurd rfl h.1
  · exact h.2

/-- Below the call of `spawn` in `dIn`. -/
theorem at_reg (hr : DR U u0 f0 s) {t : Nat} {r : Req α} {rest : List (Fr α (DFrame α φ))} (hst : s.stk t = .client (.app (.dReg r)) :: rest) : r.n ≠ t :=
  (after hr hst rfl).spawn rfl

theorem at_id (hr : DR U u0 f0 s) {t : Nat} {r : Req α} {rest : List (Fr α (DFrame α φ))} (hst : s.stk t = .client (.app (.dId r)) :: rest)
    (hterm : s.term = false) :
    r.n ≠ t ∧ ∃ id c, (s.thr t).rv = .nat id ∧ id ≠ 0 ∧ Ev.registered c id r.n ∈ s.log ∧ Ev.regRes t r.n id ∈ s.log := by
  have h := after hr hst rfl
  refine ⟨?_, h.reg rfl hterm⟩
  obtain ⟨sp, s0, f, n, s1, l1, s2, h1, -⟩ := h
  obtain ⟨g, ch, sa, rfl, hd, hc, h2, h3⟩ := ent h1
  have := h1.1
  have h12 := h1.2.1
  generalize s0.data.ad = x at hd
  cases hd <;> simp [liftAct, Act.cont] at hc
  case usr f u a h => cases a with
    | act a => cases a <;> simp [liftD] at hc
    | det r k => simp [liftD] at hc
  case dReg r =>
    subst hc
    exact at_reg this h12

theorem at_call (hr : DR U u0 f0 s) {t : Nat} {r : Req α} {id : Nat} {rest : List (Fr α (DFrame α φ))}
    (hst : s.stk t = .client (.app (.dCall r id)) :: rest) : DEv.made t r.n id ∈ s.data.ad.dlog := by
  have h := after hr hst rfl
  obtain ⟨sp, s0, f, n, s1, l1, s2, h1, hf, hs, -, hl, -⟩ := h
  obtain ⟨g, ch, sa, rfl, hd, hc, h2, h3⟩ := ent h1
  refine later_dlog ((hf.later.snoc hs).trans hl) ?_
  generalize s0.data.ad = x at hd ⊢
  cases hd <;> simp [liftAct, Act.cont] at hc
  case usr f u a h => cases a with
    | act a => cases a <;> simp [liftD] at hc
    | det r k => simp [liftD] at hc
  case dId r id h =>
    obtain ⟨rfl, rfl⟩ := hc
    simp [St.view]

theorem at_ret (hr : DR U u0 f0 s) {t : Nat} {r : Req α} {id : Nat} {rest : List (Fr α (DFrame α φ))}
    (hst : s.stk t = .client (.app (.dRet r id)) :: rest) (hterm : s.term = false) (hexc : (s.thr t).exc = none) :
    DEv.made t r.n id ∈ s.data.ad.dlog ∧ ∃ p, (s.thr t).rv = .nat p ∧ MadeFor 0 id r.as r.body s.data.sd p := by
  have h := after hr hst rfl
  obtain ⟨sp, s0, f, n, s1, l1, s2, h1, hf, hs, hend, hl, ht⟩ := h
  obtain ⟨ha, hb, -⟩ := ht hterm
  obtain ⟨g, ch, sa, rfl, hd, hc, h2, h3⟩ := ent h1
  refine ⟨later_dlog ((hf.later.snoc hs).trans hl) ?_, ?_⟩
  · have := h1.1
    have h12 := h1.2.1
    generalize s0.data.ad = x at hd ⊢
    cases hd <;> simp [liftAct, Act.cont] at hc
    case usr f u a h => cases a with
      | act a => cases a <;> simp [liftD] at hc
      | det r k => simp [liftD] at hc
    case dCall r id =>
      obtain ⟨rfl, rfl⟩ := hc
      exact at_call this h12
  · have key : ∃ p, (s2.thr t).rv = .nat p ∧ MadeFor s0.data.sd.nst id r.as r.body s2.data.sd p := by
      have hst0 := h1.2.2.1
      unfold Req.call at hst0
      split at hst0
      · exact async_ret h1.reach hst0 hf hs hend (ha ▸ hexc)
      · exact then_ret h1.reach hst0 hf hs hend (ha ▸ hexc)
    obtain ⟨p, h4, h5⟩ := key
    refine ⟨p, hb.trans h4, ?_⟩
    have := h5.mono (later_ext hl)
    exact ⟨Nat.zero_le _, this.2⟩

theorem at_unreg (hr : DR U u0 f0 s) {t : Nat} {rest : List (Fr α (DFrame α φ))}
    (hst : s.stk t = .client (.app .tUnreg) :: rest) (hterm : s.term = false) (hexc : (s.thr t).exc = none) :
    ∃ sw c, DR U u0 f0 sw ∧ Later (client (detApp U)) sw s ∧ sw.stk t = .client (.app .tWait) :: rest ∧ sw.loc t = some c ∧
      ((∃ c x, Since sw.log (.started t c x) s.log) ∨ Ev.exitSet c ∈ s.log) := by
  obtain ⟨sp, s0, f, h1, hl, hw⟩ := (after hr hst rfl).wait rfl hterm hexc
  obtain ⟨g, ch, sa, rfl, hd, hc, h2, h3, h4, h5⟩ := ent h1
  have hg : g = .tWait := by
    generalize s0.data.ad = x at hd
    cases hd <;> simp [liftAct, Act.cont] at hc
    case usr f u a h => cases a with
      | act a => cases a <;> simp [liftD] at hc
      | det r k => simp [liftD] at hc
    case tWait => rfl
  subst hg
  obtain ⟨c, hc⟩ := (after h1.1 h1.2.1 rfl).regSelf rfl h2
  rw [h4, h5] at hw
  obtain ⟨h1, h12, -, ch, b, hs, -, -⟩ := h1
  refine ⟨sp, c, h1, (Later.refl.snoc hs).trans hl, h12, hc, ?_⟩
  rcases hw with h | h | ⟨c', h, h'⟩
  · exact .inl h
  · rw [hc] at h; cases h
  · rw [hc] at h; cases h; exact .inr h'

end
end Det
end Itc
