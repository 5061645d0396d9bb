import Verif.Pool.Pkg
import Verif.Sync.AFut
import Verif.Props.Outcome

/-!
# Thread pool: how a job ends (proof infrastructure, no claims)
-/
namespace Itc
namespace Pool
open Core Sync
section
variable {α φ δ χ : Type} {U : PApp α φ δ χ} {u0 : δ} {f0 : φ} {s s' : PSt α φ δ}

theorem lsum_pos' {β : Type} {w : β → Nat} {l : List β} (h : 1 ≤ lsum w l) : ∃ x ∈ l, 1 ≤ w x := by
  induction l with
  | nil => simp [lsum] at h
  | cons x l ih =>
    rw [lsum_cons] at h
    by_cases hx : 1 ≤ w x
    · exact ⟨x, by simp, hx⟩
    · obtain ⟨y, h1, h2⟩ := ih (by omega)
      exact ⟨y, by simp [h1], h2⟩

theorem cs_pos {x : Nat} {c : Call α} : 1 ≤ cs x c ↔ c.u = x ∨ c.p = x := by simp only [cs, b1]; grind

/-! ## Calls -/

theorem inn_ext {T : Tab} {p : Nat} {d : Data (PTask α) (PData α δ)} (h : (d.sd.st p).owner = .ext) : (wts (PData α δ) (PFrame α φ) T p).inn d = lsum (evI T p) d.sd.slog := by
  simp [wts, ownI, h]

theorem called_le (hr : PR U u0 f0 s) (x : Nat) : lsum (evI .U x) s.data.sd.slog ≤ lsum (eTk x) s.data.ad.plog := by
  have h1 := (aCall_ok U u0 f0 x).data' hr
  have h2 : (aCall x : PL α φ δ).aw.ev = evI .U x := by
    funext e
    cases e <;> simp [PL.aw, AW.ev, aCall, evI, b1, Sync.b1]
  rw [h2] at h1
  simpa [aCall] using h1

theorem freed_le (hr : PR U u0 f0 s) (x : Nat) : lsum (evI .O x) s.data.sd.slog ≤ lsum (eFr x) s.data.ad.plog := by
  have h1 := (aFree_ok U u0 f0 x).data' hr
  have h2 : (aFree x : PL α φ δ).aw.ev = evI .O x := by
    funext e
    cases e <;> simp [PL.aw, AW.ev, aFree, evI, b1, Sync.b1]
  rw [h2] at h1
  simpa [aFree] using h1

/-- The function of a packaged task of the pool is called at most once. -/
theorem start_le (hr : PR U u0 f0 s) {p : Nat} (ho : (s.data.sd.st p).owner = .ext) : lsum (evO .U p) s.data.sd.slog ≤ lsum (eTk p) s.data.ad.plog := by
  have h1 := acc_le hr .U p 0
  rw [inn_ext ho] at h1
  have h2 := called_le hr p
  have h3 : lsum (evO .U p) s.data.sd.slog ≤ (wts (PData α δ) (PFrame α φ) .U p).out s.data := by simp [wts]
  omega

theorem start1 (hr : PR U u0 f0 s) {p : Nat} (ho : (s.data.sd.st p).owner = .ext) : lsum (evO .U p) s.data.sd.slog ≤ 1 :=
  Nat.le_trans (start_le hr ho) (Nat.le_trans (tk_le hr p) (sch1 hr p))

/-- Only the tasks of jobs that were taken are called. -/
theorem start_took (hr : PR U u0 f0 s) {t p : Nat} (ho : (s.data.sd.st p).owner = .ext) (h : .bodyStart t p ∈ s.data.sd.slog) :
    ∃ i id c, Took s.data.ad i id c ∧ (c.u = p ∨ c.p = p) := by
  have h1 := lsum_mem (w := evO .U p) h
  have h2 := start_le hr ho
  have h3 : evO .U p (.bodyStart t p) = 1 := by simp [evO, Sync.b1]
  obtain ⟨e, he, hw⟩ := lsum_pos' (w := eTk p) (l := s.data.ad.plog) (by omega)
  cases e <;> simp only [eTk] at hw <;> first | omega | skip
  rename_i t' i L id c h
  exact ⟨i, id, c, ⟨_, _, _, he⟩, cs_pos.1 hw⟩

theorem job_took (hr : PR U u0 f0 s) {t i id : Nat} {c : Call α} (hc : Schd s.data.ad i id c) {p : Nat} (hp : p = c.u ∨ p = c.p) (h : .bodyStart t p ∈ s.data.sd.slog) :
    Took s.data.ad i id c := by
  have hx := sch_ext hr hc
  obtain ⟨i', id', c', h1, h2⟩ := start_took hr (p := p) (by rcases hp with rfl | rfl; exacts [hx.1.2, hx.2.2]) h
  obtain ⟨t1, L1, hd, h3⟩ := h1
  obtain ⟨t2, g2, h4⟩ := took_schd hr h3
  obtain ⟨t3, g3, h5⟩ := hc
  obtain ⟨⟨-, rfl, rfl, rfl, -⟩, -⟩ := sch_uniq hr (x := p) h5 h4 (by grind) h2
  exact ⟨t1, L1, hd, h3⟩

/-- A job is taken or cut, not both. -/
theorem took_cut (hr : PR U u0 f0 s) {i id : Nat} (h1 : id ∈ takenIds i s.data.ad.plog) (h2 : id ∈ cutIds i s.data.ad.plog) : False :=
  List.disjoint_of_nodup_append ((ji hr) i).cuts h1 h2

/-! ## Ends of jobs -/

/-- The event is that of a call of wait / wait_all that waits for these states. -/
def Orig (t i : Nat) (ps : List Nat) : PEv α → Prop
  | .waits u j _ none => u = t ∧ j = i ∧ ps = []
  | .waits u j _ (some p) => u = t ∧ j = i ∧ ps = [p]
  | .waitsAll u j m => u = t ∧ j = i ∧ ps = m.map (·.2)
  | _ => False

/-- Event number `k` of the log. -/
def At (ad : PData α δ) (k : Nat) (e : PEv α) : Prop := ∃ l1 l2, ad.plog = l1 ++ e :: l2 ∧ l2.length = k

/-- The wait for state `p` in call `k` is over. -/
def WOver (d : SData (PTask α)) (ad : PData α δ) (t i k p : Nat) : Prop := rdy d p ∨ ∃ r, .waited t i k p true r ∈ ad.plog

/-- The call of the job is over when the worker clears it; waiting. -/
def fy (d : SData (PTask α)) (ad : PData α δ) (t : Nat) : PFrame α φ → Prop
  | .clIn _ _ (.job c) => rdy d c.p
  | .wtGo i k dn l => (∃ e, At ad k e ∧ Orig t i (dn.reverse ++ l) e) ∧ ∀ p ∈ dn.tail, WOver d ad t i k p
  | _ => True

structure IY (d : SData (PTask α)) (ad : PData α δ) : Prop where
  done : ∀ {t i id c}, .done t i id c ∈ ad.plog → rdy d c.p
  ret : ∀ {t i k ps}, .waitRet t i k ps ∈ ad.plog → (∃ e, At ad k e ∧ Orig t i ps e) ∧ ∀ p ∈ ps, WOver d ad t i k p

section
variable {d d' : SData (PTask α)} {ad ad' : PData α δ}

theorem At.mono (hp : ad.plog <:+ ad'.plog) {k : Nat} {e : PEv α} (h : At ad k e) : At ad' k e := by
  obtain ⟨es, hp⟩ := hp
  obtain ⟨l1, l2, h1, h2⟩ := h
  exact ⟨es ++ l1, l2, by rw [← hp, h1, List.append_assoc], h2⟩

theorem WOver.mono (he : Ext d d') (hp : ad.plog <:+ ad'.plog) {t i k p : Nat} (h : WOver d ad t i k p) : WOver d' ad' t i k p :=
  h.imp (rdy_mono he) fun ⟨r, h⟩ => ⟨r, hp.subset h⟩

theorem Orig_mono (hp : ad.plog <:+ ad'.plog) {t i k : Nat} {ps : List Nat} (h : ∃ e, At ad k e ∧ Orig t i ps e) : ∃ e, At ad' k e ∧ Orig t i ps e :=
  h.imp fun _ h => ⟨h.1.mono hp, h.2⟩

theorem fy_mono (he : Ext d d') (hp : ad.plog <:+ ad'.plog) {t : Nat} {f : PFrame α φ} (h : fy d ad t f) : fy d' ad' t f := by
  cases f <;> first | trivial | skip
  case clIn i id K => cases K <;> first | trivial | exact rdy_mono he h
  case wtGo i k dn l => exact ⟨Orig_mono hp h.1, fun p hm => (h.2 p hm).mono he hp⟩

theorem IY.mono (he : Ext d d') (h : IY d ad) : IY d' ad :=
  ⟨fun hm => rdy_mono he (h.done hm), fun hm => ⟨(h.ret hm).1, fun p hp => ((h.ret hm).2 p hp).mono he (List.suffix_refl _)⟩⟩

def eY : PEv α → Prop
  | .done _ _ _ _ => False
  | .waitRet _ _ _ _ => False
  | _ => True

/-- New events of other kinds. -/
theorem IY.add (h : IY d ad) {es : List (PEv α)} (hl : ad'.plog = es ++ ad.plog) (hes : ∀ e ∈ es, eY e) : IY d ad' := by
  have hp : ad.plog <:+ ad'.plog := by rw [hl]; simp
  refine ⟨fun hm => ?_, fun hm => ?_⟩
  · rw [hl] at hm
    rcases List.mem_append.1 hm with hm | hm
    · exact (hes _ hm).elim
    · exact h.done hm
  · rw [hl] at hm
    rcases List.mem_append.1 hm with hm | hm
    · exact (hes _ hm).elim
    · exact ⟨Orig_mono hp (h.ret hm).1, fun p hq => ((h.ret hm).2 p hq).mono (Ext.refl _) hp⟩

theorem IY.dn (h : IY d ad) {t i id : Nat} {c : Call α} (hl : ad'.plog = .done t i id c :: ad.plog) (hc : rdy d c.p) : IY d ad' := by
  have hp : ad.plog <:+ ad'.plog := by rw [hl]; simp
  refine ⟨fun hm => ?_, fun hm => ?_⟩
  · rw [hl] at hm
    rcases List.mem_cons.1 hm with hm | hm
    · cases hm; exact hc
    · exact h.done hm
  · rw [hl] at hm
    have hm := (List.mem_cons.1 hm).resolve_left (by simp)
    exact ⟨Orig_mono hp (h.ret hm).1, fun p hq => ((h.ret hm).2 p hq).mono (Ext.refl _) hp⟩

theorem dropEvs_eY (t i : Nat) : ∀ l : List (Job α), ∀ e ∈ dropEvs t i l, eY e
  | [], e, h => by simp [dropEvs] at h
  | j :: l, e, h => by
    simp only [dropEvs] at h
    rcases List.mem_cons.1 h with h | h
    · subst h; cases j.call <;> trivial
    · exact dropEvs_eY t i l e h

end

def wtE : PFrame α φ → Option (SApi (PTask α))
  | .wtGo _ _ (p :: _) _ => some (.futWait (some p))
  | _ => none

theorem ready_lt (hr : PR U u0 f0 s) {p : Nat} (h : s.data.sd.ready p = true) : p < s.data.sd.nst := by
  by_contra hlt
  rw [SData.ready, (ty1_I hr).fresh p (by omega)] at h; simp at h

theorem waitEv_log (v : View) (ad : PData α δ) (i k : Nat) (dn : List Nat) :
    (waitEv v ad i k dn).plog = (match dn with | [] => [] | p :: _ => [.waited v.tid i k p v.exit v.reg]) ++ ad.plog := by
  cases dn <;> rfl

/-- The log only grows. -/
theorem plog_suf {v : View} {ad : PData α δ} {f : PFrame α φ} {rv : Val} {ch : Ch (PCh χ)} {ad' : PData α δ} {a : SAct (PTask α) (PFrame α φ)}
    (h : (poolApp U).step v ad f rv ch = some (ad', a)) : ad.plog <:+ ad'.plog := by
  cases pool_pc h with
  | usr g ch u wa hU => exact List.suffix_refl _
  | ck x d' id c hP => cases hP <;> exact List.suffix_cons _ _
  | ps f d' a hf hb hP =>
    cases hP
    case caIn i K => exact List.suffix_append _ _
    case wtEnd i k dn => cases dn <;> first | exact List.suffix_cons _ _ | exact (List.suffix_cons _ _).trans (List.suffix_cons _ _)
    case wtGo i k dn p l => cases dn <;> first | exact List.suffix_refl _ | exact List.suffix_cons _ _
    all_goals first
      | exact List.suffix_refl _
      | exact List.suffix_cons _ _
      | (subst_vars; exact List.suffix_refl _)
      | (subst_vars; exact List.suffix_cons _ _)

/-- Calls of future::wait. -/
def pf (U : PApp α φ δ χ) (u0 : δ) (f0 : φ) : AF (poolApp U) { u := u0 } (.usr f0) where
  E := wtE
  R s t b := match b with
    | .futWait (some p) => (s.thr t).exc = none → s.data.sd.ready p = true ∨ s.notified t = true
    | _ => True
  e0 := rfl
  run a := by cases a <;> exact ⟨rfl, rfl⟩
  throw h := by
    rcases pool_throw h with ⟨g, g', rfl, rfl⟩ | ⟨i, l, c, K, rfl, rfl⟩ | ⟨i, o, K, rfl, rfl⟩ | ⟨i, o, l, K, rfl, rfl⟩ <;> rfl
  code h := code_z (F := fun g => wtE g = none) (fun _ => rfl) rfl h
  push {v ad f rv ch ad' g k} hs := by
    generalize hx : (SAct.push g k : SAct (PTask α) (PFrame α φ)) = x at hs
    cases pool_pc hs with
    | usr g ch u wa hU =>
      have hl := liftP_cases wa
      clear hs hU
      rw [← hx] at hl
      generalize hy : (SAct.push _ k : SAct (PTask α) (PFrame α φ)) = y at hl
      cases hl <;> first | (cases hy; done) | skip
      · cases hy; rfl
      · cases hy; rename_i a _; cases a <;> rfl
    | ck => cases hx
    | ps f d' a' hf hb hP => cases hP <;> cases hx
  cont {v ad f rv ch ad' sa k b} hs hk hb := by
    rcases pool_cont hs hk with ⟨g, rfl⟩ | ⟨a, rfl⟩ | ⟨x, id, c, -, -, rfl⟩ | hP
    · cases hb
    · cases a <;> cases hb
    · cases hb
    · clear hs
      cases hP <;> simp only [liftAct, Act.cont, Option.some.injEq, reduceCtorEq, SFrame.app.injEq] at hk <;> subst hk <;>
        first | (cases hb; done) | (cases hb; rfl)
  fin {s0 s s' t n b k rest l} hk hr hst hf hs hend := by
    cases k <;> first | (cases hk; done) | skip
    rename_i i k dn l'
    cases dn with
    | nil => cases hk
    | cons p dn =>
      cases hk
      intro he
      rcases C31_wait hr hst hf hs hend he with h | h
      · exact .inl (by simpa [SData.ready] using h)
      · exact .inr h
  stab {s s' t b k rest l} hk hr hst h hs hst' := by
    cases k <;> first | (cases hk; done) | skip
    rename_i i k dn l'
    cases dn with
    | nil => cases hk
    | cons p dn =>
      cases hk
      intro he
      have he0 := exc_keep hr hst hs hst' (by
        intro e k' h
        rcases pool_throw h with ⟨g, g', h, rfl⟩ | ⟨i, l, c, K, h, rfl⟩ | ⟨i, o, K, h, rfl⟩ | ⟨i, o, l, K, h, rfl⟩ <;> cases h) he
      rcases h he0 with h1 | h1
      · exact .inl (rdy_mono (step_ext hs) ⟨ready_lt hr h1, h1⟩).2
      · exact .inr (notified_keep hr hst hs he0 h1)

def py (U : PApp α φ δ χ) (u0 : δ) (f0 : φ) : AT (poolApp U) { u := u0 } (.usr f0) where
  W _ _ _ _ := True
  L _ _ _ := True
  F d ad t f := fy d ad t f
  Q _ _ _ := True
  G _ _ _ _ := True
  I d ad := IY d ad
  mono he := ⟨id, id, fun h => fy_mono he (List.suffix_refl _) h, id, id, id, id, id⟩
  wl _ _ _ := trivial
  run {d ad a} _ t := by cases a <;> trivial
  runR {d ad t p a} _ := by cases a <;> trivial
  des {d ad a} _ t := by cases a <;> trivial
  gset _ _ _ := trivial
  gdtor _ _ _ := trivial
  gpkg _ _ := trivial
  sync _ _ hi _ hS := hi.mono hS.ext
  throw := by
    intro s t g g' rest e hj hst he hp h
    rcases pool_throw h with ⟨g, g', rfl, rfl⟩ | ⟨i, l, c, K, rfl, rfl⟩ | ⟨i, o, K, rfl, rfl⟩ | ⟨i, o, l, K, rfl, rfl⟩ <;> trivial
  app := by
    intro s t ch g rest ad' sa hr he hst hi hp hs
    have hle := plog_suf hs
    refine ⟨?_, ⟨id, id, fun h => fy_mono (Ext.refl _) hle h, id, id, id, id, id⟩, ?_⟩
    · cases pool_pc hs with
      | usr g ch u wa hU => exact hi.add (es := []) rfl (by simp)
      | ck x d' id c hP => cases hP <;> exact hi.add (es := [_]) rfl (by simp [eY])
      | ps f d' a hf hb hP =>
        have hw := fun b => (pf U u0 f0).top hr hst (b := b)
        clear hs hle
        cases hP
        case clNo i id c hn => exact hi.dn rfl hp
        case clJob i id c j hj hc => exact hi.dn rfl hp
        case clDrop i id c j c' hj hc => exact hi.dn rfl hp
        case caIn i K => exact hi.add rfl (dropEvs_eY _ _ _)
        case wtEnd i k dn =>
          have h1 : IY s.data.sd (waitEv (s.view t) s.data.ad i k dn) := hi.add (waitEv_log _ _ _ _ _) (by cases dn <;> simp [eY])
          have hm1 : s.data.ad.plog <:+ (waitEv (s.view t) s.data.ad i k dn).plog := by rw [waitEv_log]; simp
          have hm2 : (waitEv (s.view t) s.data.ad i k dn).plog <:+ ((waitEv (s.view t) s.data.ad i k dn).ev (.waitRet (s.view t).tid i k dn.reverse)).plog :=
            List.suffix_cons _ _
          refine ⟨fun hm => h1.done ((List.mem_cons.1 hm).resolve_left (by simp)), fun hm => ?_⟩
          rcases List.mem_cons.1 hm with hm | hm
          · cases hm
            refine ⟨by have := Orig_mono hm2 (Orig_mono hm1 hp.1); rw [List.append_nil] at this; exact this, fun p hq => ?_⟩
            have hov := fun p hq => ((hp.2 p hq).mono (Ext.refl _) hm1).mono (Ext.refl _) hm2
            cases dn with
            | nil => simp at hq
            | cons q dn =>
              simp only [List.mem_reverse, List.mem_cons] at hq
              rcases hq with rfl | hq
              · rcases hw _ rfl he with h | h
                · exact .inl ⟨ready_lt hr h, h⟩
                · refine .inr ⟨(s.view t).reg, hm2.subset ?_⟩
                  rw [waitEv_log]
                  refine List.mem_append_left _ ?_
                  show _ ∈ [PEv.waited t i k _ (s.notified t) (s.view t).reg]
                  rw [h]; first | exact List.mem_cons_self | (simp; done) | (simp; rfl)
              · exact hov p hq
          · exact ⟨Orig_mono hm2 (h1.ret hm).1, fun p hq => ((h1.ret hm).2 p hq).mono (Ext.refl _) hm2⟩
        case wtGo i k dn p l => exact hi.add (waitEv_log _ _ _ _ _) (by cases dn <;> simp [eY])
        all_goals first
          | exact hi.add (es := []) rfl (by simp)
          | exact hi.add (es := [_]) rfl (by simp [eY])
          | (subst_vars; exact hi.add (es := []) rfl (by simp))
          | (subst_vars; exact hi.add (es := [_]) rfl (by simp [eY]))
    · cases pool_pc hs with
      | usr g ch u wa hU =>
        refine liftP_ok (fun _ _ => trivial) (fun _ _ => trivial) (fun _ => trivial) ?_ (fun _ => trivial) _ _
        intro t a; cases a <;> trivial
      | ck x d' id c hP => trivial
      | ps f d' a hf hb hP =>
        have hk := fun p => k_ready hr hst (p := p)
        have hw := fun b => (pf U u0 f0).top hr hst (b := b)
        clear hs
        cases hP
        case ckRan i id c => exact ⟨⟨ready_lt hr (hk _ rfl).1, (hk _ rfl).1⟩, trivial⟩
        case wtNo i id hn => exact ⟨⟨⟨_, ⟨[], _, rfl, rfl⟩, rfl, rfl, rfl⟩, by simp⟩, trivial⟩
        case wtBody i id j hj => exact ⟨⟨⟨_, ⟨[], _, rfl, rfl⟩, rfl, rfl, rfl⟩, by simp⟩, trivial⟩
        case waBody i => exact ⟨⟨⟨_, ⟨[], _, rfl, rfl⟩, rfl, rfl, by simp⟩, by simp⟩, trivial⟩
        case wtGo i k dn p l =>
          refine ⟨⟨?_, fun q hq => ?_⟩, trivial⟩
          · simpa using Orig_mono hle hp.1
          · simp only [List.tail_cons] at hq
            cases dn with
            | nil => simp at hq
            | cons q' dn =>
              rcases List.mem_cons.1 hq with rfl | hq
              · rcases hw _ rfl he with h | h
                · exact .inl ⟨ready_lt hr h, h⟩
                · refine .inr ⟨(s.view t).reg, ?_⟩
                  rw [waitEv_log]
                  refine List.mem_append_left _ ?_
                  show _ ∈ [PEv.waited t i k _ (s.notified t) (s.view t).reg]
                  rw [h]; first | exact List.mem_cons_self | (simp; done) | (simp; rfl)
              · exact (hp.2 q hq).mono (Ext.refl _) hle
        all_goals first
          | trivial
          | exact ⟨trivial, trivial⟩
          | exact ⟨trivial, fun _ => trivial⟩
          | exact ⟨trivial, trivial, trivial⟩

theorem py_ok (h : PR U u0 f0 s) : (py U u0 f0).ty.Ok s := (py U u0 f0).sound (show IY _ _ by constructor <;> simp) trivial h

theorem iy (h : PR U u0 f0 s) : IY s.data.sd s.data.ad := (py_ok h).data.i

/-! ## The outcome of a job -/

/-- Erased before a worker took the callable. -/
def Cut (ad : PData α δ) (i id : Nat) (c : Call α) : Prop := ∃ t, .stopped t i id c ∈ ad.plog ∨ .discarded t i id c ∈ ad.plog

theorem Cut.mem {ad : PData α δ} {i id : Nat} {c : Call α} (h : Cut ad i id c) : id ∈ cutIds i ad.plog := by
  obtain ⟨t, h | h⟩ := h <;> exact List.mem_filterMap.2 ⟨_, h, by simp [PEv.cutId]⟩

theorem Took.mem {ad : PData α δ} {i id : Nat} {c : Call α} (h : Took ad i id c) : id ∈ takenIds i ad.plog := by
  obtain ⟨t, L, hd, h⟩ := h; exact List.mem_filterMap.2 ⟨_, h, by simp [PEv.takenId]⟩

theorem Cut.schd (hr : PR U u0 f0 s) {i id : Nat} {c : Call α} (h : Cut s.data.ad i id c) : Schd s.data.ad i id c := by
  obtain ⟨t, h | h⟩ := h
  all_goals
    obtain ⟨l1, l2, h1, ⟨t', g, h2⟩, -⟩ := (hist hr).mem h
    exact ⟨t', g, by rw [h1]; simp [h2]⟩

theorem Took.schd (hr : PR U u0 f0 s) {i id : Nat} {c : Call α} (h : Took s.data.ad i id c) : Schd s.data.ad i id c := by
  obtain ⟨t, L, hd, h⟩ := h; exact took_schd hr h

/-- A packaged task that is destroyed belongs to a job that was erased, or is ready. -/
theorem freed_cut (hr : PR U u0 f0 s) {t p : Nat} (h : .freed t p ∈ s.data.sd.slog) :
    s.data.sd.ready p = true ∨ ∃ i id c, Cut s.data.ad i id c ∧ (c.u = p ∨ c.p = p) := by
  have h1 := lsum_mem (w := evI .O p) h
  have h2 := freed_le hr p
  have h3 : evI .O p (.freed t p) = 1 := by simp [evI, Sync.b1]
  obtain ⟨e, he, hw⟩ := lsum_pos' (w := eFr p) (l := s.data.ad.plog) (by omega)
  cases e <;> simp only [eFr] at hw <;> first | omega | skip
  · exact .inr ⟨_, _, _, ⟨_, .inl he⟩, cs_pos.1 hw⟩
  · exact .inr ⟨_, _, _, ⟨_, .inr he⟩, cs_pos.1 hw⟩
  · rename_i t' i id c
    have hd := ((iy hr).done he).2
    obtain ⟨l1, l2, hl, t'', L, hh, h4⟩ := (hist hr).mem he
    have h5 := took_schd hr (show .took t'' i L id c hh ∈ s.data.ad.plog by rw [hl]; simp [h4])
    rcases cs_pos.1 hw with rfl | rfl
    · exact .inl (up_ready hr h5 hd)
    · exact .inl hd

/-- What the packaged tasks of the pool are made ready with. -/
def POut (sl : List SEv) (ad : PData α δ) (t p : Nat) (r : Res) : Prop :=
  (∃ v, r = .val v ∧ .bodyRet t p v ∈ sl) ∨ (∃ e, r = .exn e ∧ .bodyThrew t p e ∈ sl) ∨
    r = .exn .brokenPromise ∧ ∃ i id c, Cut ad i id c ∧ (c.u = p ∨ c.p = p)

theorem plog_mono (hr : PR U u0 f0 s) {l : Lbl (PCh χ)} (hs : Core.step (client (poolApp U)) s l = some s') : ∀ e ∈ s.data.ad.plog, e ∈ s'.data.ad.plog := by
  cases l with
  | tick n => rw [step_tick _ s s' n hs]; exact fun _ h => h
  | th t ch =>
    cases mv hr hs with
    | app g rest a he hst hd hact hA => obtain ⟨ch', hA⟩ := hA; exact (ty_step hr he hst hA).log
    | sync f rest a he hst hS hact had => rw [had]; exact fun _ h => h
    | hand e f f' rest he hst hn hf hst' he' hd had => rw [had]; exact fun _ h => h
    | drop e f rest he hst hn hf hst' he' hd had => rw [had]; exact fun _ h => h
    | core f rest pre hst hpre hst' hd had => rw [had]; exact fun _ h => h
    | still hst' he' hd had => rw [had]; exact fun _ h => h

theorem Cut.mono (hr : PR U u0 f0 s) {l : Lbl (PCh χ)} (hs : Core.step (client (poolApp U)) s l = some s') {i id : Nat} {c : Call α}
    (h : Cut s.data.ad i id c) : Cut s'.data.ad i id c := by
  obtain ⟨t, h⟩ := h; exact ⟨t, h.imp (plog_mono hr hs _) (plog_mono hr hs _)⟩

theorem p_out (hr : PR U u0 f0 s) : ∀ t p r, .sat t p r ∈ s.data.sd.slog → (s.data.sd.st p).owner = .ext → POut s.data.sd.slog s.data.ad t p r := by
  refine Reach.induct (fun s : PSt α φ δ => ∀ t p r, .sat t p r ∈ s.data.sd.slog → (s.data.sd.st p).owner = .ext → POut s.data.sd.slog s.data.ad t p r) ?_ ?_ hr
  · intro t p r h; simp [Core.init] at h
  · intro s l s' hr q hs
    have hext := step_ext hs
    have hpl := plog_mono hr hs
    cases l with
    | tick n => rw [step_tick _ s s' n hs]; exact q
    | th t ch =>
      intro u p r h ho
      rcases sat_new hr hs h with h0 | ⟨rfl, rest, hst, hn⟩
      · have hlt := ready_lt hr ((ready_sat hr p).2 ⟨u, r, h0⟩)
        rcases q u p r h0 (by rw [← hext.owner hlt]; exact ho) with ⟨v, h1, h2⟩ | ⟨e, h1, h2⟩ | ⟨h1, i, id, c, h2, h3⟩
        · exact .inl ⟨v, h1, hext.mem h2⟩
        · exact .inr (.inl ⟨e, h1, hext.mem h2⟩)
        · exact .inr (.inr ⟨h1, i, id, c, h2.mono hr hs, h3⟩)
      · have hmem : .client (.srSet p r) ∈ s.stk u := by rw [hst]; simp
        have hlt : p < s.data.sd.nst := svr_lt hr hmem (r := r) ⟨rfl, rfl⟩
        have ho' : (s.data.sd.st p).owner = .ext := by rw [← hext.owner hlt]; exact ho
        rcases below hr u _ rest p r hst ⟨rfl, rfl⟩ ⟨hlt, by rw [ho']; simp⟩ with ⟨a, v, h1, h2, h3⟩ | ⟨a, e, h1, h2, h3⟩ | ⟨a, h1, h2⟩
        · exact .inl ⟨v, h2, hext.mem h3⟩
        · rcases h3 with h3 | ⟨-, h3⟩
          · exact .inr (.inl ⟨e, h2, hext.mem h3⟩)
          · rw [hn] at h3; cases h3
        · have hpd : .client (.pdEnd p) ∈ s.stk u := by rw [hst, h1]; simp
          have h4 := acc_le hr .O p u
          have h5 := mem_thw (T := .O) (p := p) hpd
          have h6 : fw .O p (.pdEnd p : SFrame (PTask α) (PFrame α φ)) = 1 := by simp [fw, Tab.dt, Sync.b1]
          rw [inn_ext ho'] at h4
          obtain ⟨e, he, hw⟩ := lsum_pos' (w := evI .O p) (l := s.data.sd.slog) (by omega)
          cases e <;> simp only [evI, Sync.b1] at hw <;> first | omega | skip
          rename_i w q'
          split at hw <;> [subst_vars; omega]
          rcases freed_cut hr he with h7 | ⟨i, id, c, h7, h8⟩
          · rw [hn] at h7; cases h7
          · exact .inr (.inr ⟨rfl, i, id, c, h7.mono hr hs, h8⟩)

/-- The future of a job: what its function returned or threw, or broken_promise if the job was erased before a worker took it. -/
theorem job_out (hr : PR U u0 f0 s) {t i id : Nat} {c : Call α} {r : Res} (hc : Schd s.data.ad i id c) (h : .sat t c.u r ∈ s.data.sd.slog) :
    (∃ v, r = .val v ∧ .bodyRet t c.u v ∈ s.data.sd.slog) ∨ (∃ e, r = .exn e ∧ .bodyThrew t c.u e ∈ s.data.sd.slog) ∨
      r = .exn .brokenPromise ∧ Cut s.data.ad i id c := by
  rcases p_out hr t c.u r h (sch_ext hr hc).1.2 with h1 | h1 | ⟨h1, i', id', c', h2, h3⟩
  · exact .inl h1
  · exact .inr (.inl h1)
  · refine .inr (.inr ⟨h1, ?_⟩)
    obtain ⟨t1, g1, h4⟩ := h2.schd hr
    obtain ⟨t2, g2, h5⟩ := hc
    obtain ⟨⟨-, rfl, rfl, rfl, -⟩, -⟩ := sch_uniq hr (x := c.u) h5 h4 (.inl rfl) h3
    exact h2

/-- A job is not executed after it was erased. -/
theorem cut_start (hr : PR U u0 f0 s) {t i id : Nat} {c : Call α} (h : Cut s.data.ad i id c) {p : Nat} (hp : p = c.u ∨ p = c.p) : .bodyStart t p ∉ s.data.sd.slog := fun hb =>
  took_cut hr (job_took hr (h.schd hr) hp hb).mem h.mem

/-- A job whose future is ready is not being executed. -/
theorem over_ended (hr : PR U u0 f0 s) {t i id : Nat} {c : Call α} (hc : Schd s.data.ad i id c) (hrd : s.data.sd.ready c.u = true)
    (hb : .bodyStart t c.u ∈ s.data.sd.slog) : (∃ v, .bodyRet t c.u v ∈ s.data.sd.slog) ∨ ∃ e, .bodyThrew t c.u e ∈ s.data.sd.slog := by
  obtain ⟨w, r, h⟩ := (ready_sat hr c.u).1 hrd
  have key : ∀ w, .bodyStart w c.u ∈ s.data.sd.slog → w = t := by
    intro w hw
    by_contra hne
    have h1 := lsum_mem2 (w := evO .U c.u) hb hw (by simp; exact fun h => hne h.symm)
    have h2 := start1 hr (sch_ext hr hc).1.2
    simp [evO, Sync.b1] at h1
    omega
  rcases job_out hr hc h with ⟨v, -, h1⟩ | ⟨e, -, h1⟩ | ⟨-, h1⟩
  · obtain rfl := key w ((ty5_I hr).ret _ _ _ h1); exact .inl ⟨v, h1⟩
  · obtain rfl := key w ((ty5_I hr).threw _ _ _ h1); exact .inr ⟨e, h1⟩
  · exact absurd hb (cut_start hr h1 (.inl rfl))

end
end Pool
end Itc
