import Verif.Pool.Idle
import Verif.Core.NewEv

/-!
# Thread pool: where the notifications of the workers are (proof infrastructure, no claims)
-/
namespace Itc
namespace Pool
open Core Sync
section
variable {α φ δ χ : Type} {U : PApp α φ δ χ} {u0 : δ} {f0 : φ} {s s' : PSt α φ δ}

/-! ## notify_workers never throws -/

def NPh : CF (STask (PTask α)) (SFrame (PTask α) (PFrame α φ)) → PSt α φ δ → Prop
  | .dispatch _ _, _ => True
  | .invLook _ _ own, _ => own = true
  | .invPush _ _, _ => True
  | .release _ _ _, _ => True
  | .destroyList _ _ _ _, _ => True
  | .dispRan _, _ => True
  | .retv _, _ => True
  | _, _ => False

theorem nPh (t i : Nat) (l : List Tok) (x : Tok) (K : AK') (rest : List (Fr (PTask α) (PFrame α φ))) :
    CPh (client (poolApp U)) { sd := {}, ad := { u := u0 } } (.app (.usr f0)) t (.client (.app (.nw i l (some x) K)) :: rest) NPh (fun s => (s.thr t).exc = none) where
  mono {s s' f l} hr hs h := by cases f <;> exact h
  task {s f k e} hr hst he h hf := by
    cases f <;> first | exact h.elim | (cases hf; done) | skip
    rw [(inl_ok hr t [] _ i l x K rest hst).1] at he
    cases he
  unw {s f} h := by cases f <;> first | exact h.elim | rfl
  core {s s' f ch} hr hst he h hs hc := by
    cases f <;> simp only [NPh] at h <;> first | exact h.elim | skip
    case dispatch i k' =>
      simp only [stepCore] at hc
      split at hc <;> obtain rfl := Option.some.inj hc
      · exact .inr ⟨[_], .dispRan k', by simp [St.stk, St.setStk]; rfl, trivial⟩
      · exact .inr ⟨[], .invLook i k' true, by simp [St.stk, St.setStk], rfl⟩
    case invLook i k' own =>
      subst h
      simp only [stepCore, if_true] at hc
      repeat' (split at hc)
      all_goals first
        | (cases hc; done)
        | (obtain rfl := Option.some.inj hc; exact .inr ⟨[_], .retv (some i), by simp [St.stk, St.setStk]; rfl, trivial⟩)
        | (obtain rfl := Option.some.inj hc; exact .inr ⟨[], .invPush _ k', by simp [St.stk, St.setStk]; rfl, trivial⟩)
    case invPush c k' =>
      simp only [stepCore] at hc
      split at hc <;> obtain rfl := Option.some.inj hc
      · exact .inr ⟨[], .invPush c k', hst, trivial⟩
      · exact .inr ⟨[], .release c _ _, by simp [St.stk, St.setStk]; exact ⟨rfl, rfl⟩, trivial⟩
    case release c fn v =>
      simp only [stepCore] at hc
      split at hc <;> obtain rfl := Option.some.inj hc
      · exact .inr ⟨[], .destroyList c _ fn v, by simp [St.stk, St.setStk]; rfl, trivial⟩
      · exact .inl ⟨by simp [St.stk, St.ret], by simpa [St.ret, St.ev, St.setCtx] using he⟩
    case destroyList c l fn v =>
      cases l with
      | cons k l =>
        simp only [stepCore] at hc
        obtain rfl := Option.some.inj hc
        exact .inr ⟨[_], .destroyList c l fn v, by simp [St.stk, St.setStk]; rfl, trivial⟩
      | nil =>
        simp only [stepCore] at hc
        obtain rfl := Option.some.inj hc
        exact .inl ⟨by simp [St.stk, St.ret], by simpa [St.ret, St.ev, St.setCtx] using he⟩
    case retv o =>
      cases o <;> simp only [stepCore] at hc <;> obtain rfl := Option.some.inj hc <;>
        exact .inl ⟨by simp [St.stk, St.ret], by simpa [St.ret, St.ev] using he⟩
    case dispRan k' =>
      simp only [stepCore] at hc
      obtain rfl := Option.some.inj hc
      exact .inr ⟨[_], .retv none, by simp [St.stk, St.setStk]; rfl, trivial⟩

def neE : PFrame α φ → Option (Api (PTask α) (PFrame α φ))
  | .nw _ _ (some x) _ => some (.dispatch x.w (.check x))
  | _ => none

/-- Calls of dispatch by notify_workers. -/
def ne (U : PApp α φ δ χ) (u0 : δ) (f0 : φ) : AC (poolApp U) { u := u0 } (.usr f0) where
  E := neE
  R s t _ _ := (s.thr t).exc = none
  e0 := rfl
  run a := by cases a <;> exact ⟨rfl, rfl⟩
  throw h := by
    rcases pool_throw h with ⟨g, g', rfl, rfl⟩ | ⟨i, l, c, K, rfl, rfl⟩ | ⟨i, o, K, rfl, rfl⟩ | ⟨i, o, l, K, rfl, rfl⟩ <;> rfl
  code h := code_z (F := fun g => neE g = none) (fun _ => rfl) rfl h
  push {v ad f rv ch ad' g k} hs := by
    generalize hx : (SAct.push g k : SAct (PTask α) (PFrame α φ)) = x at hs
    cases pool_pc hs with
    | usr g ch u wa hU =>
      have hl := liftP_cases wa
      clear hs hU
      rw [← hx] at hl
      generalize hy : (SAct.push _ k : SAct (PTask α) (PFrame α φ)) = y at hl
      cases hl <;> first | (cases hy; done) | skip
      · cases hy; rfl
      · cases hy; rename_i a _; cases a <;> rfl
    | ck => cases hx
    | ps f d' a' hf hb hP => cases hP <;> cases hx
  cont {v ad f rv ch ad' sa k b} hs hk hb := by
    rcases pool_cont hs hk with ⟨g, rfl⟩ | ⟨a, rfl⟩ | ⟨x, id, c, -, -, rfl⟩ | hP
    · cases hb
    · cases a <;> cases hb
    · cases hb
    · clear hs
      cases hP <;> simp only [liftAct, Act.cont, Option.some.injEq, reduceCtorEq, SFrame.app.injEq] at hk <;> subst hk <;>
        first | (cases hb; done) | (cases hb; rfl)
  fin {s0 s s' t n b k rest l} hk hr hst hf hs hend := by
    cases k <;> first | (cases hk; done) | skip
    case nw i l cur K =>
      cases cur <;> cases hk
      exact (nPh t _ _ _ _ _).fin hr hst trivial hf hs hend
  stab {s s' t b k rest l} hk hr hst h hs hst' := exc_fwd hr hst h hs hst'

theorem nw_exc (hr : PR U u0 f0 s) {t i : Nat} {l : List Tok} {cur : Option Tok} {K : AK'} {rest : List (Fr (PTask α) (PFrame α φ))}
    (hst : s.stk t = .client (.app (.nw i l cur K)) :: rest) : (s.thr t).exc = none := by
  cases cur with
  | none => exact (topF_ok hr (pre := []) hst trivial).2
  | some x => exact (ne U u0 f0).top hr hst rfl

/-! ## Where a notification is -/

theorem opn_new {v : View} {ad : PData α δ} {f : PFrame α φ} {rv : Val} {ch : Ch (PCh χ)} {ad' : PData α δ} {a : SAct (PTask α) (PFrame α φ)}
    (h : (poolApp U).step v ad f rv ch = some (ad', a)) {x : Tok} (hm : x ∈ ad'.opn) :
    x ∈ ad.opn ∨ ad.ntok ≤ x.n ∧ ∃ i l K, a = .goto (.nw i l none K) ∧ x ∈ l := by
  cases pool_pc h with
  | usr g ch u wa hU => exact .inl hm
  | ck x d' id c hP => cases hP <;> exact .inl (List.mem_of_mem_erase hm)
  | ps f d' a hf hb hP =>
    clear h
    cases hP
    case ajIn => 
      rcases List.mem_append.1 hm with hm | hm
      · exact .inl hm
      · refine .inr ⟨(mkToks_n hm).1, _, _, _, rfl, ?_⟩
        simpa [insJob, chgJob, PData.ev, PData.upd, set_same] using hm
    case cpBody =>
      rcases List.mem_append.1 hm with hm | hm
      · exact .inl hm
      · refine .inr ⟨(mkToks_n hm).1, _, _, _, rfl, ?_⟩
        simpa [insJob, chgJob, PData.ev, PData.upd, set_same] using hm
    case ckExit => exact .inl (List.mem_of_mem_erase hm)
    case wtEnd i k dn => cases dn <;> exact .inl hm
    case wtGo i k dn p l => cases dn <;> exact .inl hm
    all_goals first
      | exact .inl hm
      | (subst_vars; exact .inl hm)

theorem tok_loc (hr : PR U u0 f0 s) {x : Tok} (hm : x ∈ s.data.ad.opn) :
    (∃ t i l cur K, .client (.app (.nw i l cur K)) ∈ s.stk t ∧ (x ∈ l ∨ cur = some x)) ∨ ∃ t, DisR t x.w (.app (.check x)) s.log := by
  refine Reach.induct (fun s : PSt α φ δ => x ∈ s.data.ad.opn → (∃ t i l cur K, .client (.app (.nw i l cur K)) ∈ s.stk t ∧ (x ∈ l ∨ cur = some x)) ∨
    ∃ t, DisR t x.w (.app (.check x)) s.log) (by intro h; simp [Core.init] at h) ?_ hr hm
  clear hr hm
  intro s l' s' hr q hs hm
  have dm : ∀ {t}, DisR t x.w (.app (.check x)) s.log → DisR t x.w (.app (.check x)) s'.log := fun h =>
    h.imp (fun h => h.imp fun _ h => step_logm hs h) (fun h => h.imp (step_logm hs) (step_logm hs))
  cases l' with
  | tick n => rw [step_tick _ s s' n hs] at hm ⊢; exact q hm
  | th t ch =>
    have old : x ∈ s.data.ad.opn → (∃ t i l cur K, .client (.app (.nw i l cur K)) ∈ s'.stk t ∧ (x ∈ l ∨ cur = some x)) ∨ ∃ t, DisR t x.w (.app (.check x)) s'.log := by
      intro h
      rcases q h with ⟨u, i, l, cur, K, h1, h2⟩ | ⟨u, h1⟩
      · rcases frame_stays hr h1 hs with h3 | ⟨rfl, rest, hst⟩
        · exact .inl ⟨u, i, l, cur, K, h3, h2⟩
        · have cu : cur = some x → ∃ t, DisR t x.w (.app (.check x)) s'.log := by
            rintro rfl
            exact ⟨u, dm ((wc U u0 f0).top hr hst rfl)⟩
          obtain ⟨a, ch', hA, hd, hact⟩ := pool_at hr hst (nw_exc hr hst) hs
          generalize s'.data.ad = ad2 at hA
          cases pool_pc hA with
          | ps f d' a hf hb hP =>
            cases hP with
            | bad => exact .inl ⟨u, i, l, cur, K, by rw [hact.1]; exact h1, h2⟩
            | nwEnd =>
              rcases h2 with h2 | h2
              · cases h2
              · exact .inr (cu h2)
            | nwGo _ y l =>
              rcases h2 with h2 | h2
              · refine .inl ⟨u, i, l, some y, K, by rw [hact.1]; simp, ?_⟩
                rcases List.mem_cons.1 h2 with rfl | h2
                · exact .inr rfl
                · exact .inl h2
              · exact .inr (cu h2)
      · exact .inr ⟨u, dm h1⟩
    cases mv hr hs with
    | app g rest a he hst hd hact hA =>
      obtain ⟨ch', hA⟩ := hA
      rcases opn_new hA hm with h | ⟨-, i, l, K, rfl, h2⟩
      · exact old h
      · exact .inl ⟨t, i, l, none, K, by rw [hact.1]; simp, .inl h2⟩
    | sync f rest a he hst hS hact had => rw [had] at hm; exact old hm
    | hand e f f' rest he hst hn hf hst' he' hd had => rw [had] at hm; exact old hm
    | drop e f rest he hst hn hf hst' he' hd had => rw [had] at hm; exact old hm
    | core f rest pre hst hpre hst' hd had => rw [had] at hm; exact old hm
    | still hst' he' hd had => rw [had] at hm; exact old hm

/-- A thread has begun to run the notification. -/
def Ran (u : Nat) (x : Tok) (l : List (Ev (STask (PTask α)))) : Prop := (∃ c, Ev.started u c (.app (.check x)) ∈ l) ∨ ∃ i, Ev.inlined u i (.app (.check x)) ∈ l

theorem wp_ok (hr : PR U u0 f0 s) : (wp U u0 f0).Ok s := (wp U u0 f0).sound (fun _ h => h) hr

theorem mem_extract {τ β : Type} {g : Ev τ → Option β} {b : β} {l : List (Ev τ)} : b ∈ extract g l ↔ ∃ e ∈ l, g e = some b := by
  induction l with
  | nil => simp [extract]
  | cons e l ih =>
    simp only [extract, List.mem_append, ih, Option.mem_toList, List.mem_cons, exists_eq_or_imp]
    exact or_comm

theorem mem_stas {τ : Type} {c : Nat} {k : τ} {l : List (Ev τ)} : k ∈ stas c l ↔ ∃ t, Ev.started t c k ∈ l := by
  rw [stas, mem_extract]
  constructor
  · rintro ⟨e, h, he⟩
    cases e <;> simp at he
    obtain ⟨rfl, rfl⟩ := he
    exact ⟨_, h⟩
  · rintro ⟨t, h⟩; exact ⟨_, h, by simp⟩

theorem mem_dros {τ : Type} {c : Nat} {k : τ} {l : List (Ev τ)} : k ∈ dros c l ↔ ∃ t, Ev.dropped t c k ∈ l := by
  rw [dros, mem_extract]
  constructor
  · rintro ⟨e, h, he⟩
    cases e <;> simp at he
    obtain ⟨rfl, rfl⟩ := he
    exact ⟨_, h⟩
  · rintro ⟨t, h⟩; exact ⟨_, h, by simp⟩

theorem acc_mem {τ : Type} {t c i : Nat} {k : τ} {l : List (Ev τ)} (h : Ev.accepted t c i k ∈ l) : k ∈ accs c l := by
  rw [accs, mem_extract]
  exact ⟨_, h, by simp⟩

theorem started_acc {τ φ δ χ : Type} {C : Client τ φ δ χ} {d : δ} {i0 : φ} {s : St τ φ δ} (hr : Reach C d i0 s) {u c : Nat} {k : τ} (h : Ev.started u c k ∈ s.log) :
    ∃ t i, Ev.accepted t c i k ∈ s.log := by
  refine mem_accs ?_
  rw [(QInv.reach hr).cons c]
  have := mem_stas.2 ⟨u, h⟩
  simp [this]

theorem inl_wk (hr : PR U u0 f0 s) {u i : Nat} {x : Tok} (h : Ev.inlined u i (.app (.check x)) ∈ s.log) : i = x.w ∧ WkOf s.data.ad x := by
  refine Reach.induct (fun s : PSt α φ δ => Ev.inlined u i (.app (.check x)) ∈ s.log → i = x.w ∧ WkOf s.data.ad x) (by intro h; simp [Core.init] at h) ?_ hr h
  clear hr h
  intro s l s' hr q hs h
  cases l with
  | tick n => rw [step_tick _ s s' n hs] at h ⊢; exact q h
  | th t ch =>
    rcases step_ev hs h with h | ⟨_, _, h⟩ | ⟨f, rest, h1, hd, -, rfl, -⟩
    · obtain ⟨h1, h2⟩ := q h
      refine ⟨h1, ?_⟩
      cases mv hr hs with
      | app g rest a he hst hd hact hA => obtain ⟨ch', hA⟩ := hA; exact (ty_step hr he hst hA).wkOf h2
      | sync f rest a he hst hS hact had => rw [had]; exact h2
      | hand e f f' rest he hst hn hf hst' he' hd had => rw [had]; exact h2
      | drop e f rest he hst hn hf hst' he' hd had => rw [had]; exact h2
      | core f rest pre hst hpre hst' hd had => rw [had]; exact h2
      | still hst' he' hd had => rw [had]; exact h2
    · cases h
    · rw [hd]
      exact (wp_ok hr).fr t (.dispatch i _) i _ (by rw [h1]; simp) rfl x rfl

theorem ran_wk (hr : PR U u0 f0 s) {u : Nat} {x : Tok} (h : Ran u x s.log) : WkOf s.data.ad x := by
  rcases h with ⟨c, h⟩ | ⟨i, h⟩
  · obtain ⟨t, i, h⟩ := started_acc hr h
    exact ((wp_ok hr).log t c i _ h x rfl).2
  · exact (inl_wk hr h).2

/-- A notification that a thread runs, and that is not served, is still at the start of check_jobs. -/
theorem ran_frame (hr : PR U u0 f0 s) {u : Nat} {x : Tok} (hm : x ∈ s.data.ad.opn) (h : Ran u x s.log) :
    .client (.app (.ckIn x)) ∈ s.stk u ∨ .client (.app (.ckBody x)) ∈ s.stk u := by
  refine Reach.induct (fun s : PSt α φ δ => x ∈ s.data.ad.opn → Ran u x s.log → .client (.app (.ckIn x)) ∈ s.stk u ∨ .client (.app (.ckBody x)) ∈ s.stk u)
    (by intro h; simp [Core.init] at h) ?_ hr hm h
  clear hr h hm
  intro s l s' hr q hs hm h
  cases l with
  | tick n => rw [step_tick _ s s' n hs] at h hm ⊢; exact q hm h
  | th t ch =>
    by_cases h0 : Ran u x s.log
    · have hm0 : x ∈ s.data.ad.opn := by
        cases mv hr hs with
        | app g rest a he hst hd hact hA =>
          obtain ⟨ch', hA⟩ := hA
          rcases opn_new hA hm with h | ⟨h, -⟩
          · exact h
          · obtain ⟨_, _, _, hlt⟩ := ran_wk hr h0
            omega
        | sync f rest a he hst hS hact had => rw [had] at hm; exact hm
        | hand e f f' rest he hst hn hf hst' he' hd had => rw [had] at hm; exact hm
        | drop e f rest he hst hn hf hst' he' hd had => rw [had] at hm; exact hm
        | core f rest pre hst hpre hst' hd had => rw [had] at hm; exact hm
        | still hst' he' hd had => rw [had] at hm; exact hm
      have nod := (toks hr).nod
      rcases q hm0 h0 with h1 | h1
      · rcases frame_stays hr h1 hs with h2 | ⟨rfl, rest, hst⟩
        · exact .inl h2
        · obtain ⟨a, ch', hA, hd, hact⟩ := pool_at hr hst (topF_ok hr (pre := []) hst trivial).2 hs
          generalize s'.data.ad = ad2 at hA hm
          cases pool_pc hA with
          | ps f d' a hf hb hP =>
            cases hP with
            | bad => exact .inl (by rw [hact.1]; exact h1)
            | ckExit hx => exact absurd hm (nod.not_mem_erase)
            | ckIn hx => exact .inr (by rw [hact.1]; simp)
      · rcases frame_stays hr h1 hs with h2 | ⟨rfl, rest, hst⟩
        · exact .inr h2
        · obtain ⟨a, ch', hA, hd, hact⟩ := pool_at hr hst (ckB_ok hr u [] x rest hst).1 hs
          generalize s'.data.ad = ad2 at hA hm
          cases pool_pc hA with
          | ck x d' id c hP => cases hP <;> exact absurd hm (nod.not_mem_erase)
          | ps f d' a hf hb hP => exact absurd rfl (hb x)
    · rcases h with ⟨c, h⟩ | ⟨i, h⟩
      · rcases step_ev hs h with h | ⟨_, _, h⟩ | ⟨f, rest, h1, hd, rfl, r, hst⟩
        · exact absurd (.inl ⟨c, h⟩) h0
        · cases h
        · exact .inl (by rw [hst]; exact List.mem_cons_self)
      · rcases step_ev hs h with h | ⟨_, _, h⟩ | ⟨f, rest, h1, hd, rfl, -, hst⟩
        · exact absurd (.inr ⟨i, h⟩) h0
        · cases h
        · exact .inl (by rw [hst]; exact List.mem_cons_self)

/-- A notification is refused only if the worker is unregistered. -/
theorem ref_unr (hr : PR U u0 f0 s) {u : Nat} {x : Tok} (h : Ev.refused u x.w (.app (.check x)) ∈ s.log) : ∃ c n, Ev.unregistered c x.w n ∈ s.log := by
  refine Reach.induct (fun s : PSt α φ δ => Ev.refused u x.w (.app (.check x)) ∈ s.log → ∃ c n, Ev.unregistered c x.w n ∈ s.log) (by intro h; simp [Core.init] at h) ?_ hr h
  clear hr h
  intro s l s' hr q hs h
  have up : (∃ c n, Ev.unregistered c x.w n ∈ s.log) → ∃ c n, Ev.unregistered c x.w n ∈ s'.log := fun ⟨c, n, h⟩ => ⟨c, n, step_logm hs h⟩
  cases l with
  | tick n => rw [step_tick _ s s' n hs] at h ⊢; exact q h
  | th t ch =>
    rcases step_ev hs h with h | ⟨_, _, h⟩ | ⟨f, rest, h1, hd, -, ⟨own, rfl⟩, hx⟩
    · exact up (q h)
    · cases h
    · obtain ⟨-, t', n, hw, -⟩ := (wp_ok hr).fr t (.invLook x.w _ own) x.w _ (by rw [h1]; simp) rfl x rfl
      obtain ⟨c, hreg⟩ := worker_reg hr hw
      refine up ⟨c, n, ((LInv.reach hr).unr c x.w n).2 ?_⟩
      obtain ⟨a1, a2, a3⟩ := ((LInv.reach hr).regd c x.w n).1 hreg
      refine ⟨a1, ?_, a2, a3⟩
      rintro ⟨j, hj⟩
      obtain ⟨-, b2, -⟩ := (WF.reach hr).mem _ _ hj
      rcases hx with hx | hx
      · exact (reg_uniq hr hreg hreg).2.2 hx
      · exact Core.find_none hx c (by rw [← a2, b2]; exact hj)

/-! ## Idle workers -/

theorem _root_.Itc.Sync.ALk.free {A : App α φ δ χ} {ad0 : δ} {f0 : φ} {B : AK A ad0 f0} {Z : AL A ad0 f0} (K : ALk B Z) {s : SSt α φ δ} (h : SR A ad0 f0 s) {u : Nat} {g : φ}
    (hg : 1 ≤ K.H g) (hge : K.e g = false) (hm : .client (.app g) ∈ s.stk u) : s.data.sd.lk (.user K.n) ≠ none := by
  intro hfree
  have ok := K.ok h
  have hl : ∀ (l : List (Fr α φ)), .client (.app g) ∈ l → 1 ≤ losum K.wts l := by
    intro l hl
    have h2 := lsum_mem (w := Frame.lo K.wts) hl
    have h3 : (Frame.client (.app g) : Fr α φ).lo K.wts = K.H g := by
      show K.lo (.app g) = _
      simp [ALk.lo, hge]
    have : K.H g ≤ losum K.wts l := h3 ▸ h2
    omega
  have hh := ALk.held_none hfree
  have h1 : thw K.wts s u + 0 ≤ held K.n s.data.sd := ok.le u
  have h2 : 1 ≤ thw K.wts s u := by
    unfold thw stw
    split
    · have := hl _ hm
      cases hs : s.stk u with
      | nil => rw [hs] at hm; simp at hm
      | cons x r =>
        rw [hs] at this
        simp only [losum_cons] at this
        simp only [topHi]
        have : x.lo K.wts ≤ x.hi K.wts (s.thr u).rv := by
          cases x with
          | client f => exact K.lo_le f
          | core f => exact Nat.le_of_eq ((K.cw0 f).1.trans (K.cw0 f).2.symm)
        omega
    · have := hl _ hm
      cases hs : s.stk u with
      | nil => rw [hs] at hm; simp at hm
      | cons x r =>
        rw [hs] at this
        simp only [losum_cons] at this
        simp only [topHx]
        have : x.lo K.wts ≤ x.hx K.wts := by
          cases x with
          | client f => exact Nat.le_refl _
          | core f => cases f <;> first | exact Nat.le_refl _ | exact Nat.le_of_eq (K.cw0 _).1 | (simp [Frame.lo, Frame.hx, ALk.wts, CF.lw, CF.xw]; done)
        omega
  omega

theorem nw_held (hr : PR U u0 f0 s) {u i : Nat} {l : List Tok} {cur : Option Tok} {K : AK'} (hm : .client (.app (.nw i l cur K)) ∈ s.stk u) :
    s.data.sd.lk (.user (gd i)) ≠ none :=
  (sec U u0 f0 i).free hr (by show 1 ≤ secH i (.nw i l cur K : PFrame α φ); simp [secH, secF]) (by show secE i (.nw i l cur K : PFrame α φ) = false; simp [secE, secF]) hm

theorem idle_elig (hr : PR U u0 f0 s) {i : Nat} {w : Wk} {c : Nat} (hw : w ∈ (s.data.ad.imp i).wk) (hreg : Ev.registered c w.id w.n ∈ s.log)
    (hun : Ev.unregistered c w.id w.n ∉ s.log) (hex : Ev.exitSet c ∉ s.log) (hp : (s.ctxs c).pend = [])
    (hck : ∀ x, x.i = i → .client (.app (.ckIn x)) ∉ s.stk w.n ∧ .client (.app (.ckBody x)) ∉ s.stk w.n) (hlk : s.data.sd.lk (.user (gd i)) = none) :
    elig w.lvl (s.data.ad.imp i).q = [] := by
  have T := toks hr
  have unr : ∀ {c' n}, Ev.unregistered c' w.id n ∈ s.log → False := by
    intro c' n h
    obtain ⟨a1, a2, a3⟩ := ((LInv.reach hr).unr _ _ _).1 h
    obtain ⟨rfl, rfl, -⟩ := reg_uniq hr hreg (((LInv.reach hr).regd c' w.id n).2 ⟨a1, a3⟩)
    exact hun h
  have no : ∀ x ∈ s.data.ad.opn, tokOf i w x = true → False := by
    intro x hx ht
    simp only [tokOf, decide_eq_true_eq] at ht
    obtain ⟨hi, hid, hL⟩ := ht
    have ran : ∀ u, Ran u x s.log → False := by
      intro u hu
      have h1 := ran_frame hr hx hu
      have : ∃ c, Ev.registered c x.w u ∈ s.log := by
        rcases h1 with h1 | h1
        · exact (ck_thread hr (.inl rfl) h1).imp fun _ h => h.1
        · exact (ck_thread hr (.inr rfl) h1).imp fun _ h => h.1
      obtain ⟨c', h2⟩ := this
      rw [hid] at h2
      obtain ⟨-, rfl, -⟩ := reg_uniq hr hreg h2
      rcases h1 with h1 | h1
      · exact (hck x hi).1 h1
      · exact (hck x hi).2 h1
    rcases tok_loc hr hx with ⟨t, j, l, cur, K, h1, h2⟩ | ⟨t, ⟨c', h⟩ | h | h⟩
    · have hj : x.i = j := ((tyF hr h1).2.1 x (h2.imp id fun h => h)).1
      rw [← hj, hi] at h1
      exact nw_held hr h1 hlk
    · obtain ⟨l1, l2, hl⟩ := List.append_of_mem h
      obtain ⟨n, h2⟩ := (LInv.reach hr).hist.split hl
      have h2 : Ev.registered c' x.w n ∈ s.log := by rw [hl]; simp [h2]
      rw [hid] at h2
      obtain ⟨rfl, rfl, -⟩ := reg_uniq hr hreg h2
      have h3 := acc_mem h
      rw [(QInv.reach hr).cons c, hp, List.append_nil, List.mem_append, mem_stas, mem_dros] at h3
      rcases h3 with ⟨u, h3⟩ | ⟨u, h3⟩
      · exact ran u (.inl ⟨_, h3⟩)
      · obtain ⟨l1, l2, hl⟩ := List.append_of_mem h3
        obtain ⟨id', n, h4⟩ := (LInv.reach hr).hist.split hl
        have h4 : Ev.unregistered c id' n ∈ s.log := by rw [hl]; simp [h4]
        obtain ⟨-, -, a3, a4⟩ := ((LInv.reach hr).unr _ _ _).1 h4
        obtain ⟨-, b3, b4⟩ := ((LInv.reach hr).regd _ _ _).1 hreg
        rw [a3] at b3; rw [a4] at b4
        subst b3; subst b4
        exact hun h4
    · exact ran t (.inr ⟨_, h⟩)
    · obtain ⟨c', n, h⟩ := ref_unr hr h
      rw [hid] at h
      exact unr h
  rcases T.cnt hw with h | ⟨t, x, h, hid⟩
  · have : s.data.ad.opn.countP (tokOf i w) = 0 := List.countP_eq_zero.2 fun x hx ht => no x hx ht
    rw [this] at h
    exact List.length_eq_zero_iff.1 (Nat.le_zero.1 h)
  · obtain ⟨c', h1, h2⟩ := exits_why hr h
    rw [hid] at h1 h2
    obtain ⟨rfl, rfl, -⟩ := reg_uniq hr hreg h1
    exact absurd h2 (by rintro (h | h); exact hun h; exact hex h)

theorem pend_job (hr : PR U u0 f0 s) {i id : Nat} {g : Grp} (hp : Pending i id s.data.ad.plog) (hg : curGrp i id s.data.ad.plog = some g) :
    ⟨id, g⟩ ∈ (s.data.ad.imp i).q := by
  have J := ji hr i
  obtain ⟨h1, h2, h3⟩ := hp
  have h4 : id ∉ goneIds i s.data.ad.plog := fun h => (J.tk id h).elim h2 h3
  have h5 : id ∈ (s.data.ad.imp i).jobs.map (·.id) := by rw [J.jobs]; simp [h1, h4]
  obtain ⟨j, hj, rfl⟩ := List.mem_map.1 h5
  have := J.cur j hj
  rw [hg] at this
  cases this
  exact J.pend j hj ((J.call j hj).2 h2)

end
end Pool
end Itc
