import Verif.Pool.Cut
import Verif.Pool.Ret
import Verif.Pool.Jobs
import Verif.Sync.Waits

/-!
# What a call of a pool function does (proof infrastructure, no claims)
-/
namespace Itc
namespace Pool
open Core Sync
section
variable {α φ δ χ : Type} {U : PApp α φ δ χ} {u0 : δ} {f0 : φ} {s s' s0 : PSt α φ δ}

theorem plog_suffix {l : Lbl (PCh χ)} (hs : step (client (poolApp U)) s l = some s') : s.data.ad.plog <:+ s'.data.ad.plog := by
  cases l with
  | tick n => rw [step_tick _ s s' n hs]; exact List.suffix_refl _
  | th t ch =>
    rcases app_data hs with h1 | ⟨g, rest, sa, -, -, hA⟩
    · rw [h1]; exact List.suffix_refl _
    · exact plog_suf hA

/-- The functions of a pool. -/
inductive PCall (α : Type)
  | sched (h : Nat) (g : Grp) (a : α)
  | stop (h id : Nat)
  | stopAll (h : Nat)
  | change (h id : Nat) (g : Grp)
  | wait (h id : Nat)
  | waitAll (h : Nat)
  | count (h : Nat)

/-- Pool object `h` refers to pool `i` at some time between `s0` and `s`. -/
def DerefIn (U : PApp α φ δ χ) (s0 s : PSt α φ δ) (h i : Nat) : Prop :=
  ∃ s1, Later (client (poolApp U)) s0 s1 ∧ s1.data.ad.deref h = some i ∧ Later (client (poolApp U)) s1 s

theorem DerefIn.mono {h i : Nat} {l : Lbl (PCh χ)} (hd : DerefIn U s0 s h i) (hs : step (client (poolApp U)) s l = some s') : DerefIn U s0 s' h i := by
  obtain ⟨s1, h1, h2, h3⟩ := hd
  exact ⟨s1, h1, h2, h3.snoc hs⟩

theorem later_suf (h : Later (client (poolApp U)) s0 s) : s0.data.ad.plog <:+ s.data.ad.plog :=
  h.ind (P := fun x => s0.data.ad.plog <:+ x.data.ad.plog) (fun hs h => h.trans (plog_suffix hs)) (List.suffix_refl _)

/-- Since `s0` the events `es` were logged in one step, by one thread, when the log was `l`. -/
def Logd (s0 s : PSt α φ δ) (es l : List (PEv α)) : Prop := s0.data.ad.plog <:+ l ∧ es ++ l <:+ s.data.ad.plog

theorem Logd.mono {es l : List (PEv α)} {lb : Lbl (PCh χ)} (h : Logd s0 s es l) (hs : step (client (poolApp U)) s lb = some s') : Logd s0 s' es l :=
  ⟨h.1, h.2.trans (plog_suffix hs)⟩

theorem logd_new {es : List (PEv α)} (hl : Later (client (poolApp U)) s0 s) (h : s'.data.ad.plog = es ++ s.data.ad.plog) : Logd s0 s' es s.data.ad.plog :=
  ⟨later_suf hl, h ▸ List.suffix_refl _⟩

def ScF (t : Nat) (s0 s : PSt α φ δ) (i id u : Nat) (g : Grp) (a : α) : Prop :=
  ∃ c l, c.u = u ∧ c.a = a ∧ Logd s0 s [.sched t i id c g] l

def StF (t : Nat) (s0 s : PSt α φ δ) (i id : Nat) (o : Option (Call α)) : Prop :=
  ∃ l, match o with
    | none => Logd s0 s [.noStop t i id] l ∧ ¬ Pending i id l
    | some c => Logd s0 s [.stopped t i id c] l ∧ Pending i id l

def CaF (t : Nat) (s0 s : PSt α φ δ) (i : Nat) (o : Option (Call α)) (cs : List (Call α)) : Prop :=
  ∃ es l, Logd s0 s es l ∧ (∀ id, ¬ Pending i id (es ++ l)) ∧ ∀ id, Pending i id l → ∃ c, .discarded t i id c ∈ es ∧ (c ∈ cs ∨ o = some c ∨ rdy s.data.sd c.p)

def CpF (t : Nat) (s0 s : PSt α φ δ) (i id : Nat) (g : Grp) : Prop :=
  ∃ es l, Logd s0 s es l ∧ (es = [] ∨ es = [.changed t i id g]) ∧ (Pending i id l → Pending i id (es ++ l) ∧ curGrp i id (es ++ l) = some g)

def WtF (t : Nat) (s0 s : PSt α φ δ) (i id k : Nat) : Prop := ∃ o l, Logd s0 s [.waits t i id o] l ∧ l.length = k
def WaF (t : Nat) (s0 s : PSt α φ δ) (i k : Nat) : Prop := ∃ m l, Logd s0 s [.waitsAll t i m] l ∧ l.length = k
def CnF (t : Nat) (s0 s : PSt α φ δ) (i n : Nat) : Prop := ∃ l, Logd s0 s [.counted t i n] l

/-- The frames of a call. -/
def CPhI (U : PApp α φ δ χ) (t : Nat) (s0 : PSt α φ δ) : PCall α → PFrame α φ → PSt α φ δ → Prop
  | _, .nwThr _ _, _ => True
  | _, .clThr _ _, _ => True
  | _, .thr _, _ => True
  | .sched h g a, .scIn h' g' _ a', _ => h' = h ∧ g' = g ∧ a' = a
  | .sched h g a, .scTask _ _ h' g' a', _ => h' = h ∧ g' = g ∧ a' = a
  | .sched h g a, .scJob _ i h' g' _ a', s => DerefIn U s0 s h i ∧ h' = h ∧ g' = g ∧ a' = a
  | .sched h g a, .ajIn i h' g' c, s => DerefIn U s0 s h i ∧ h' = h ∧ g' = g ∧ c.a = a
  | .sched h g a, .nw i _ _ (.sched h' u id), s => DerefIn U s0 s h i ∧ h' = h ∧ ScF t s0 s i id u g a
  | .sched h g a, .nwFin i (.sched h' u id), s => DerefIn U s0 s h i ∧ h' = h ∧ ScF t s0 s i id u g a
  | .stop h id, .stIn h' id', _ => h' = h ∧ id' = id
  | .stop h id, .clIn i id' .stop, s => DerefIn U s0 s h i ∧ id' = id
  | .stop h id, .clUnl i o .stop, s => DerefIn U s0 s h i ∧ StF t s0 s i id o
  | .stop h id, .clFin .stop, s => ∃ i o, DerefIn U s0 s h i ∧ StF t s0 s i id o ∧ ∀ c, o = some c → rdy s.data.sd c.p
  | .stopAll h, .saIn h', _ => h' = h
  | .stopAll h, .caIn i .user, s => DerefIn U s0 s h i
  | .stopAll h, .caLoop i o l .user, s => DerefIn U s0 s h i ∧ CaF t s0 s i o l
  | .stopAll h, .caFin i .user, s => DerefIn U s0 s h i ∧ CaF t s0 s i none []
  | .change h id g, .cpIn h' id' g', _ => h' = h ∧ id' = id ∧ g' = g
  | .change h id g, .cpBody i id' g', s => DerefIn U s0 s h i ∧ id' = id ∧ g' = g
  | .change h id g, .nw i _ _ .chg, s => DerefIn U s0 s h i ∧ CpF t s0 s i id g
  | .change h id g, .nwFin i .chg, s => DerefIn U s0 s h i ∧ CpF t s0 s i id g
  | .change h id g, .unl i _, s => DerefIn U s0 s h i ∧ CpF t s0 s i id g
  | .change h id g, .done _, s => ∃ i, DerefIn U s0 s h i ∧ CpF t s0 s i id g
  | .wait h id, .wtIn h' id', _ => h' = h ∧ id' = id
  | .wait h id, .wtBody i id', s => DerefIn U s0 s h i ∧ id' = id
  | .wait h id, .wtGo i k _ _, s => DerefIn U s0 s h i ∧ WtF t s0 s i id k
  | .waitAll h, .waIn h', _ => h' = h
  | .waitAll h, .waBody i, s => DerefIn U s0 s h i
  | .waitAll h, .wtGo i k _ _, s => DerefIn U s0 s h i ∧ WaF t s0 s i k
  | .count h, .cnIn h', _ => h' = h
  | .count h, .cnBody i, s => DerefIn U s0 s h i
  | .count h, .unl i v, s => ∃ n, v = .nat n ∧ DerefIn U s0 s h i ∧ CnF t s0 s i n
  | .count h, .done v, s => ∃ i n, v = .nat n ∧ DerefIn U s0 s h i ∧ CnF t s0 s i n
  | _, _, _ => False

/-- What holds when the call has returned `v`. -/
def CRet (U : PApp α φ δ χ) (t : Nat) (s0 : PSt α φ δ) : PCall α → Val → PSt α φ δ → Prop
  | .sched h g a, v, s => ∃ i u id x, v = .ids [u, id, x] ∧ DerefIn U s0 s h i ∧ ScF t s0 s i id u g a
  | .stop h id, _, s => ∃ i o, DerefIn U s0 s h i ∧ StF t s0 s i id o ∧ ∀ c, o = some c → rdy s.data.sd c.p
  | .stopAll h, _, s => ∃ i, DerefIn U s0 s h i ∧ CaF t s0 s i none []
  | .change h id g, _, s => ∃ i, DerefIn U s0 s h i ∧ CpF t s0 s i id g
  | .wait h id, _, s => ∃ i k ps, DerefIn U s0 s h i ∧ WtF t s0 s i id k ∧ .waitRet t i k ps ∈ s.data.ad.plog
  | .waitAll h, _, s => ∃ i k ps, DerefIn U s0 s h i ∧ WaF t s0 s i k ∧ .waitRet t i k ps ∈ s.data.ad.plog
  | .count h, v, s => ∃ i n, v = .nat n ∧ DerefIn U s0 s h i ∧ CnF t s0 s i n

def QPh (U : PApp α φ δ χ) (t : Nat) (s0 : PSt α φ δ) (K : PCall α) : SFrame (PTask α) (PFrame α φ) → PSt α φ δ → Prop
  | .app f, s => Later (client (poolApp U)) s0 s ∧ CPhI U t s0 K f s
  | _, _ => False

theorem ScF.mono {t i id u : Nat} {g : Grp} {a : α} {lb : Lbl (PCh χ)} (h : ScF t s0 s i id u g a) (hs : step (client (poolApp U)) s lb = some s') :
    ScF t s0 s' i id u g a := by
  obtain ⟨c, l, h1, h2, h3⟩ := h
  exact ⟨c, l, h1, h2, h3.mono hs⟩

theorem StF.mono {t i id : Nat} {o : Option (Call α)} {lb : Lbl (PCh χ)} (h : StF t s0 s i id o) (hs : step (client (poolApp U)) s lb = some s') :
    StF t s0 s' i id o := by
  obtain ⟨l, h⟩ := h
  refine ⟨l, ?_⟩
  cases o <;> exact ⟨h.1.mono hs, h.2⟩

theorem CaF.mono {t i : Nat} {o : Option (Call α)} {cs : List (Call α)} {lb : Lbl (PCh χ)} (h : CaF t s0 s i o cs)
    (hs : step (client (poolApp U)) s lb = some s') : CaF t s0 s' i o cs := by
  obtain ⟨es, l, h1, h2, h3⟩ := h
  refine ⟨es, l, h1.mono hs, h2, fun id hp => ?_⟩
  obtain ⟨c, h4, h5⟩ := h3 id hp
  exact ⟨c, h4, h5.imp (fun h => h) (.imp (fun h => h) (rdy_mono (step_ext hs)))⟩

theorem CaF.imp {t i : Nat} {o o' : Option (Call α)} {cs cs' : List (Call α)} (h : CaF t s0 s i o cs)
    (hi : ∀ c, c ∈ cs ∨ o = some c ∨ rdy s.data.sd c.p → c ∈ cs' ∨ o' = some c ∨ rdy s.data.sd c.p) : CaF t s0 s i o' cs' := by
  obtain ⟨es, l, h1, h2, h3⟩ := h
  refine ⟨es, l, h1, h2, fun id hp => ?_⟩
  obtain ⟨c, h4, h5⟩ := h3 id hp
  exact ⟨c, h4, hi c h5⟩

theorem CpF.mono {t i id : Nat} {g : Grp} {lb : Lbl (PCh χ)} (h : CpF t s0 s i id g) (hs : step (client (poolApp U)) s lb = some s') : CpF t s0 s' i id g := by
  obtain ⟨es, l, h1, h2⟩ := h
  exact ⟨es, l, h1.mono hs, h2⟩

theorem WtF.mono {t i id k : Nat} {lb : Lbl (PCh χ)} (h : WtF t s0 s i id k) (hs : step (client (poolApp U)) s lb = some s') : WtF t s0 s' i id k := by
  obtain ⟨es, l, h1, h2⟩ := h
  exact ⟨es, l, h1.mono hs, h2⟩

theorem WaF.mono {t i k : Nat} {lb : Lbl (PCh χ)} (h : WaF t s0 s i k) (hs : step (client (poolApp U)) s lb = some s') : WaF t s0 s' i k := by
  obtain ⟨es, l, h1, h2⟩ := h
  exact ⟨es, l, h1.mono hs, h2⟩

theorem CnF.mono {t i n : Nat} {lb : Lbl (PCh χ)} (h : CnF t s0 s i n) (hs : step (client (poolApp U)) s lb = some s') : CnF t s0 s' i n := by
  obtain ⟨l, h1⟩ := h
  exact ⟨l, h1.mono hs⟩

theorem CPhI.mono {t : Nat} {K : PCall α} {f : PFrame α φ} {lb : Lbl (PCh χ)} (h : CPhI U t s0 K f s) (hs : step (client (poolApp U)) s lb = some s') :
    CPhI U t s0 K f s' := by
  unfold CPhI at h ⊢
  split at h <;> first
    | trivial
    | exact h
    | exact h.mono hs
    | exact ⟨h.1.mono hs, h.2⟩
    | exact ⟨h.1.mono hs, h.2.mono hs⟩
    | exact ⟨h.1.mono hs, h.2.1, h.2.2.mono hs⟩
    | skip
  · obtain ⟨i, o, h1, h2, h3⟩ := h
    exact ⟨i, o, h1.mono hs, h2.mono hs, fun c hc => rdy_mono (step_ext hs) (h3 c hc)⟩
  · obtain ⟨i, h1, h2⟩ := h
    exact ⟨i, h1.mono hs, h2.mono hs⟩
  · obtain ⟨n, h1, h2, h3⟩ := h
    exact ⟨n, h1, h2.mono hs, h3.mono hs⟩
  · obtain ⟨i, n, h1, h2, h3⟩ := h
    exact ⟨i, n, h1, h2.mono hs, h3.mono hs⟩

theorem drop_mem {t i : Nat} {jobs : List (Job α)} {j : Job α} {c : Call α} (hj : j ∈ jobs) (hc : j.call = some c) : .discarded t i j.id c ∈ dropEvs t i jobs := by
  induction jobs with
  | nil => cases hj
  | cons x l ih =>
    rcases List.mem_cons.1 hj with rfl | hj
    · simp [dropEvs, hc]
    · exact List.mem_cons_of_mem _ (ih hj)

theorem qPh (t : Nat) (s0 : PSt α φ δ) (K : PCall α) (rest : List (Fr (PTask α) (PFrame α φ))) :
    LPh (client (poolApp U)) ({ ad := { u := u0 } } : Data (PTask α) (PData α δ)) (.app (.usr f0)) t rest (QPh U t s0 K) (CRet U t s0 K) where
  mono {s s' f lb} hr hs h h1 h2 h3 := by
    cases f <;> first | exact h.elim | skip
    exact ⟨h.1.snoc hs, h.2.mono hs⟩
  thr {s s' f e g ch} hr h hg hs hd := by
    cases f <;> first | exact h.elim | skip
    rename_i f
    simp only [client, sThrow, Option.map_eq_some_iff] at hg
    obtain ⟨g, hg, rfl⟩ := hg
    refine ⟨h.1.snoc hs, ?_⟩
    rcases pool_throw hg with ⟨g, g', rfl, rfl⟩ | ⟨i, l, cur, K', rfl, rfl⟩ | ⟨i, o, K', rfl, rfl⟩ | ⟨i, o, l, K', rfl, rfl⟩
    · cases K <;> exact h.2.elim
    all_goals cases K <;> exact trivial
  cl {s s' f ch d' x} hr hst hexc h hs hstep hdata := by
    have he := step_ext hs
    cases client_cs hstep with
    | sync f sd x hS => cases hS <;> exact h.elim
    | app g ad sa hA =>
      have hsd : s'.data.sd = s.data.sd := by rw [hdata]
      have had : s'.data.ad = ad := by rw [hdata]
      have jI := fun i => ji hr i
      have jI' := fun i => ji (hr.step hs) i
      have htid : (s.view t).tid = t := rfl
      obtain ⟨hl, h⟩ := h
      have hl' := hl.snoc hs
      have hder : ∀ {h i : Nat}, s.data.ad.deref h = some i → DerefIn U s0 s' h i := fun hd => ⟨s, hl, hd, Later.refl.snoc hs⟩
      cases pool_pc hA with
      | usr g u wa hU => cases K <;> exact h.elim
      | ck => cases K <;> exact h.elim
      | ps f d' a hf hb hP =>
        clear hA hstep
        rw [had] at jI'
        cases hP <;> cases K <;> first | exact h.elim | exact trivial | exact fun _ => ⟨hl', trivial⟩ | (cases ‹AK'› <;> exact h.elim) | (cases ‹CK α› <;> exact h.elim) | (cases ‹SK› <;> exact h.elim) | skip
        case scIn.sched => exact fun _ => ⟨hl', h⟩
        case scTask.sched hi _ _ _ => exact fun _ => ⟨hl', hder (h.1 ▸ hi), h⟩
        case scJob.sched => exact fun _ => ⟨hl', h.1.mono hs, h.2⟩
        case ajIn.sched i h' g' c h0 g0 a0 =>
          obtain ⟨h1, rfl, rfl, h4⟩ := h
          exact fun _ => ⟨hl', h1.mono hs, rfl, c, _, rfl, h4, logd_new hl (by rw [had]; rfl)⟩
        case nwEnd.sched K' _ _ _ => cases K' with
          | sched h' u id => exact fun _ => ⟨hl', h.1.mono hs, h.2.1, h.2.2.mono hs⟩
          | chg => exact h.elim
        case nwGo.sched K' _ _ _ => cases K' with
          | sched h' u id => exact fun _ => ⟨hl', h.1.mono hs, h.2.1, h.2.2.mono hs⟩
          | chg => exact h.elim
        case nwEnd.change K' _ _ _ => cases K' with
          | sched h' u id => exact h.elim
          | chg => exact fun _ => ⟨hl', h.1.mono hs, h.2.mono hs⟩
        case nwGo.change K' _ _ _ => cases K' with
          | sched h' u id => exact h.elim
          | chg => exact fun _ => ⟨hl', h.1.mono hs, h.2.mono hs⟩
        case finSched.sched => exact ⟨_, _, _, _, rfl, h.1.mono hs, h.2.2.mono hs⟩
        case finChg.change => exact ⟨_, h.1.mono hs, h.2.mono hs⟩
        case cpIn.change hi _ _ _ => exact fun _ => ⟨hl', hder (h.1 ▸ hi), h.2⟩
        case unl.change => exact fun _ => ⟨hl', _, h.1.mono hs, h.2.mono hs⟩
        case done.change =>
          obtain ⟨i, h1, h2⟩ := h
          exact ⟨i, h1.mono hs, h2.mono hs⟩
        case cpNo.change i id g hn h0 id0 g0 =>
          obtain ⟨h1, rfl, rfl⟩ := h
          refine fun _ => ⟨hl', h1.mono hs, [], _, logd_new hl (by rw [had]; rfl), .inl rfl, fun hp => ⟨hp, ?_⟩⟩
          obtain ⟨j, hj, rfl, hc⟩ := (jI i).pending.1 hp
          have h1 : j.g = g := (hn j ((jI i).find hj)).resolve_left fun h => by rw [h] at hc; cases hc
          have h2 := (jI i).cur j hj
          rwa [h1] at h2
        case cpBody.change i id g j c hj hc hg h0 id0 g0 =>
          obtain ⟨h1, rfl, rfl⟩ := h
          refine fun _ => ⟨hl', h1.mono hs, [.changed t i id g], _, logd_new hl (by rw [had]; rfl), .inr rfl, fun hp => ⟨?_, by simp [curGrp]⟩⟩
          simpa [Pending, schedIds, takenIds, cutIds, List.filterMap_cons, PEv.schedId, PEv.takenId, PEv.cutId] using hp
        case stIn.stop hi _ _ => exact fun _ => ⟨hl', hder (h.1 ▸ hi), h.2⟩
        case stNo.stop i id hn h0 id0 =>
          obtain ⟨h1, rfl⟩ := h
          refine fun _ => ⟨hl', h1.mono hs, s.data.ad.plog, logd_new hl (by rw [had]; rfl), fun hp => ?_⟩
          obtain ⟨j, hj, rfl, hc⟩ := (jI i).pending.1 hp
          rw [hn j ((jI i).find hj)] at hc
          cases hc
        case stop.stop i id j c hj hc h0 id0 =>
          obtain ⟨h1, rfl⟩ := h
          refine fun _ => ⟨hl', h1.mono hs, s.data.ad.plog, logd_new hl (by rw [had]; rfl), ?_⟩
          obtain ⟨h1, rfl⟩ := findJob_mem hj
          exact (jI i).pending.2 ⟨j, h1, rfl, by rw [hc]; rfl⟩
        case clUnl.stop i o K' h0 id0 =>
          cases K' with
          | job c => exact h.elim
          | stop =>
            refine fun _ => ⟨hl', i, o, h.1.mono hs, h.2.mono hs, fun c hc => ?_⟩
            subst hc
            exact rdy_mono he (((pr_ok hr).top t _ _ hst).1 c.p rfl).1
        case stFin.stop =>
          obtain ⟨i, o, h1, h2, h3⟩ := h
          exact ⟨i, o, h1.mono hs, h2.mono hs, fun c hc => rdy_mono he (h3 c hc)⟩
        case saIn.stopAll hi _ => exact fun _ => ⟨hl', hder (Eq.symm h ▸ hi)⟩
        case caIn.stopAll i K' h0 =>
          cases K' with
          | dtor => exact h.elim
          | mem => exact h.elim
          | user =>
            refine fun _ => ⟨hl', h.mono hs, _, _, logd_new hl (by rw [had]), fun id hp => ?_, fun id hp => ?_⟩
            · obtain ⟨j, hj, -⟩ := (jI' i).pending.1 hp
              simp [PData.upd, Sync.set] at hj
            · obtain ⟨j, hj, rfl, hc⟩ := (jI i).pending.1 hp
              obtain ⟨c, hc⟩ := Option.isSome_iff_exists.1 hc
              exact ⟨c, drop_mem hj hc, .inl (List.mem_filterMap.2 ⟨j, hj, hc⟩)⟩
        case caLoop.stopAll i o c l K' h0 =>
          cases K' with
          | dtor => exact h.elim
          | mem => exact h.elim
          | user =>
            refine fun _ => ⟨hl', h.1.mono hs, (h.2.imp ?_).mono hs⟩
            rintro c' (h1 | rfl | h1)
            · rcases List.mem_cons.1 h1 with rfl | h1
              · exact .inr (.inl rfl)
              · exact .inl h1
            · exact .inr (.inr (((pr_ok hr).top t _ _ hst).1 c'.p rfl).1)
            · exact .inr (.inr h1)
        case caEnd.stopAll i o K' h0 =>
          cases K' with
          | dtor => exact h.elim
          | mem => exact h.elim
          | user =>
            refine fun _ => ⟨hl', h.1.mono hs, (h.2.imp ?_).mono hs⟩
            rintro c' (h1 | rfl | h1)
            · cases h1
            · exact .inr (.inr (((pr_ok hr).top t _ _ hst).1 c'.p rfl).1)
            · exact .inr (.inr h1)
        case saFin.stopAll => exact ⟨_, h.1.mono hs, h.2.mono hs⟩
        case wtIn.wait hi _ _ => exact fun _ => ⟨hl', hder (h.1 ▸ hi), h.2⟩
        case wtNo.wait =>
          obtain ⟨h1, rfl⟩ := h
          exact fun _ => ⟨hl', h1.mono hs, _, _, logd_new hl (by rw [had]; rfl), rfl⟩
        case wtBody.wait =>
          obtain ⟨h1, rfl⟩ := h
          exact fun _ => ⟨hl', h1.mono hs, _, _, logd_new hl (by rw [had]; rfl), rfl⟩
        case wtGo.wait => exact fun _ => ⟨hl', h.1.mono hs, h.2.mono hs⟩
        case wtGo.waitAll => exact fun _ => ⟨hl', h.1.mono hs, h.2.mono hs⟩
        case wtEnd.wait => exact ⟨_, _, _, h.1.mono hs, h.2.mono hs, by rw [had]; exact List.mem_cons_self⟩
        case wtEnd.waitAll => exact ⟨_, _, _, h.1.mono hs, h.2.mono hs, by rw [had]; exact List.mem_cons_self⟩
        case waIn.waitAll hi _ => exact fun _ => ⟨hl', hder (Eq.symm h ▸ hi)⟩
        case waBody.waitAll => exact fun _ => ⟨hl', h.mono hs, _, _, logd_new hl (by rw [had]; rfl), rfl⟩
        case cnIn.count hi _ => exact fun _ => ⟨hl', hder (Eq.symm h ▸ hi)⟩
        case cnBody.count => exact fun _ => ⟨hl', _, rfl, h.mono hs, _, logd_new hl (by rw [had]; rfl)⟩
        case unl.count =>
          obtain ⟨n, h1, h2, h3⟩ := h
          exact fun _ => ⟨hl', _, n, h1, h2.mono hs, h3.mono hs⟩
        case done.count =>
          obtain ⟨i, n, h1, h2, h3⟩ := h
          exact ⟨i, n, h1, h2.mono hs, h3.mono hs⟩

end
end Pool
end Itc
