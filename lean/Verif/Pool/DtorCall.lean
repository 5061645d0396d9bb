import Verif.Pool.Dtor

/-!
# A call of the destructor of a pool (proof infrastructure, no claims)
-/
namespace Itc
namespace Pool
open Core Sync
section
variable {α φ δ χ : Type} {U : PApp α φ δ χ} {u0 : δ} {f0 : φ} {s s' s0 : PSt α φ δ}

/-- The worker was told to exit, or its id is not registered any more. -/
def Told (s : PSt α φ δ) (w : Wk) : Prop :=
  ∃ c, Ev.registered c w.id w.n ∈ s.log ∧ (¬ InReg s c ∨ Ev.exitSet c ∈ s.log)

theorem Told.mono (hr : PR U u0 f0 s) {w : Wk} {lb : Lbl (PCh χ)} (h : Told s w) (hs : step (client (poolApp U)) s lb = some s') : Told s' w := by
  obtain ⟨c, h1, h2⟩ := h
  refine ⟨c, step_logm hs h1, h2.imp (fun h2 hi => h2 ?_) fun h2 => step_logm hs h2⟩
  cases lb with
  | tick n => rw [step_tick _ s s' n hs] at hi; exact hi
  | th t ch => exact own_back (step_eff _ s s' t ch hs) (((LInv.reach hr).regd _ _ _).1 h1).1 hi

/-- The thread of this worker has ended at some time between `s0` and `s`, after it was told to exit. -/
def Ended (U : PApp α φ δ χ) (s0 s : PSt α φ δ) (i : Nat) (w : Wk) : Prop :=
  ∃ s2, Later (client (poolApp U)) s0 s2 ∧ Later (client (poolApp U)) s2 s ∧ (∃ u, .worker u i w.lvl w.n w.id ∈ s2.data.ad.plog) ∧ (s2.thr w.n).status = .zombie ∧ Told s2 w

theorem Ended.mono {i : Nat} {w : Wk} {lb : Lbl (PCh χ)} (h : Ended U s0 s i w) (hs : step (client (poolApp U)) s lb = some s') : Ended U s0 s' i w := by
  obtain ⟨s2, h1, h2, h3, h4⟩ := h
  exact ⟨s2, h1, h2.snoc hs, h3, h4⟩

def DK.obj : DK → Nat
  | .del h => h
  | .asg h _ => h

/-- The object has no pool at some time between `s0` and `s`. -/
def Empty (U : PApp α φ δ χ) (s0 s : PSt α φ δ) (h : Nat) : Prop :=
  ∃ s1, Later (client (poolApp U)) s0 s1 ∧ (∃ o, s1.data.ad.obj h = some o ∧ o.impl = none) ∧ Later (client (poolApp U)) s1 s

theorem Empty.mono {h : Nat} {lb : Lbl (PCh χ)} (hd : Empty U s0 s h) (hs : step (client (poolApp U)) s lb = some s') : Empty U s0 s' h := by
  obtain ⟨s1, h1, h2, h3⟩ := hd
  exact ⟨s1, h1, h2, h3.snoc hs⟩

/-- All workers but these have ended. -/
def AllBut (U : PApp α φ δ χ) (s0 s : PSt α φ δ) (i : Nat) (P : Wk → Prop) : Prop :=
  ∀ u w, .worker u i w.lvl w.n w.id ∈ s.data.ad.plog → P w ∨ Ended U s0 s i w

/-- The thread is telling the worker to exit. -/
def InTell (t : Nat) (rest : List (Fr (PTask α) (PFrame α φ))) (f : PFrame α φ) (s : PSt α φ δ) (w : Wk) : Prop :=
  (s.thr t).exc = none ∧ (s.stk t = .core (.exitLook w.id) :: .client (.app f) :: rest ∨
    ∃ c, Ev.registered c w.id w.n ∈ s.log ∧ s.stk t = .core (.exitSet c) :: .client (.app f) :: rest)

/-- The thread waits for the thread of this worker. -/
def InJoin (t : Nat) (rest : List (Fr (PTask α) (PFrame α φ))) (f : PFrame α φ) (s : PSt α φ δ) (w : Wk) : Prop :=
  (s.thr t).exc = none ∧ s.stk t = .core (.joinIn w.n) :: .client (.app f) :: rest

/-- The workers had all ended when the jobs were destroyed. -/
def CaE (U : PApp α φ δ χ) (t : Nat) (s0 s : PSt α φ δ) (i : Nat) (o : Option (Call α)) (cs : List (Call α)) : Prop :=
  ∃ s1, Later (client (poolApp U)) s0 s1 ∧ Later (client (poolApp U)) s1 s ∧ Made s1.data.ad i ∧ AllBut U s0 s1 i (fun _ => False) ∧ CaF t s1 s i o cs

theorem CaE.mono {t i : Nat} {o : Option (Call α)} {cs : List (Call α)} {lb : Lbl (PCh χ)} (h : CaE U t s0 s i o cs) (hs : step (client (poolApp U)) s lb = some s') :
    CaE U t s0 s' i o cs := by
  obtain ⟨s1, h1, h2, h3, h4, h5⟩ := h
  exact ⟨s1, h1, h2.snoc hs, h3, h4, h5.mono hs⟩

theorem CaE.imp {t i : Nat} {o o' : Option (Call α)} {cs cs' : List (Call α)} (h : CaE U t s0 s i o cs)
    (hi : ∀ c, (c ∈ cs ∨ o = some c ∨ rdy s.data.sd c.p) → (c ∈ cs' ∨ o' = some c ∨ rdy s.data.sd c.p)) : CaE U t s0 s i o' cs' := by
  obtain ⟨s1, h1, h2, h3, h4, h5⟩ := h
  exact ⟨s1, h1, h2, h3, h4, h5.imp hi⟩

/-- `sc`, between `s0` and `s`: the jobs have been discarded. -/
def Clr (U : PApp α φ δ χ) (t : Nat) (s0 sc s : PSt α φ δ) (i : Nat) : Prop :=
  Later (client (poolApp U)) s0 sc ∧ Later (client (poolApp U)) sc s ∧ CaF t s0 sc i none []

theorem Clr.mono {t i : Nat} {sc : PSt α φ δ} {lb : Lbl (PCh χ)} (h : Clr U t s0 sc s i) (hs : step (client (poolApp U)) s lb = some s') : Clr U t s0 sc s' i :=
  ⟨h.1, h.2.1.snoc hs, h.2.2⟩

def DRes (U : PApp α φ δ χ) (t : Nat) (s0 : PSt α φ δ) (K : DK) (s : PSt α φ δ) : Prop :=
  Empty U s0 s K.obj ∨ ∃ i, DerefIn U s0 s K.obj i ∧ ∃ sc, Clr U t s0 sc s i ∧ AllBut U sc s i (fun _ => False) ∧ CaE U t sc s i none []

def DPhI (U : PApp α φ δ χ) (t : Nat) (rest : List (Fr (PTask α) (PFrame α φ))) (s0 : PSt α φ δ) (K : DK) : PFrame α φ → PSt α φ δ → Prop
  | .clThr _ _, _ => True
  | .thr _, _ => True
  | .delIn h, _ => K = .del h
  | .maIn h h', _ => K = .asg h h' ∧ h ≠ h'
  | .caIn i (.dtor K'), s => K' = K ∧ DerefIn U s0 s K.obj i
  | .caLoop i o l (.dtor K'), s => K' = K ∧ DerefIn U s0 s K.obj i ∧ CaF t s0 s i o l
  | .caFin i (.dtor K'), s => K' = K ∧ DerefIn U s0 s K.obj i ∧ CaF t s0 s i none []
  | .diIn i K', s => K' = K ∧ DerefIn U s0 s K.obj i ∧ CaF t s0 s i none []
  | .diJoin i ws K', s => K' = K ∧ DerefIn U s0 s K.obj i ∧ ∃ sc, Clr U t s0 sc s i ∧ AllBut U sc s i (fun w => w ∈ ws ∨ InJoin t rest (.diJoin i ws K') s w ∧ Told s w)
  | .diStd i x ws K', s => K' = K ∧ DerefIn U s0 s K.obj i ∧ ∃ sc, Clr U t s0 sc s i ∧ AllBut U sc s i (fun w => w ∈ ws ∨ w = x ∧ (Told s x ∨ InTell t rest (.diStd i x ws K') s x))
  | .caIn i (.mem K'), s => K' = K ∧ DerefIn U s0 s K.obj i ∧ ∃ sc, Clr U t s0 sc s i ∧ AllBut U sc s i (fun _ => False)
  | .caLoop i o l (.mem K'), s => K' = K ∧ DerefIn U s0 s K.obj i ∧ ∃ sc, Clr U t s0 sc s i ∧ AllBut U sc s i (fun _ => False) ∧ CaE U t sc s i o l
  | .caFin i (.mem K'), s => K' = K ∧ DerefIn U s0 s K.obj i ∧ ∃ sc, Clr U t s0 sc s i ∧ AllBut U sc s i (fun _ => False) ∧ CaE U t sc s i none []
  | .diEnd K', s => K' = K ∧ DRes U t s0 K s
  | _, _ => False

def DPh (U : PApp α φ δ χ) (t : Nat) (rest : List (Fr (PTask α) (PFrame α φ))) (s0 : PSt α φ δ) (K : DK) : SFrame (PTask α) (PFrame α φ) → PSt α φ δ → Prop
  | .app f, s => Later (client (poolApp U)) s0 s ∧ DPhI U t rest s0 K f s
  | _, _ => False

theorem AllBut.mono (hr : PR U u0 f0 s) {i : Nat} {P P' : Wk → Prop} {lb : Lbl (PCh χ)} (h : AllBut U s0 s i P) (hs : step (client (poolApp U)) s lb = some s')
    (hm : Made s.data.ad i) (hP : ∀ u w, .worker u i w.lvl w.n w.id ∈ s.data.ad.plog → P w → P' w ∨ Ended U s0 s' i w) : AllBut U s0 s' i P' := by
  intro u w hw
  have h1 := worker_old hr hs hm hw
  rcases h u w h1 with h2 | h2
  · exact hP u w h1 h2
  · exact .inr (h2.mono hs)

theorem made_deref (hr : PR U u0 f0 s0) {h i : Nat} (hd : DerefIn U s0 s h i) : Made s.data.ad i := by
  obtain ⟨s1, h1, h2, h3⟩ := hd
  have hr1 : PR U u0 f0 s1 := h1.ind (P := fun x => PR U u0 f0 x) (fun hs h => h.step hs) hr
  simp only [PData.deref, Option.bind_eq_some_iff] at h2
  obtain ⟨o, h4, h5⟩ := h2
  obtain ⟨t, h6⟩ := (tyI hr1).obj h4 h5
  exact ⟨t, (later_suf h3).subset h6⟩

theorem join_step {τ φ δ χ : Type} {C : Client τ φ δ χ} {s s' : St τ φ δ} {t n : Nat} {ch : Ch χ} {rest : List (Frame τ φ)} (hs : step C s (.th t ch) = some s')
    (hexc : (s.thr t).exc = none) (hst : s.stk t = .core (.joinIn n) :: rest) : (s.thr n).status = .zombie := by
  rcases step_cl hs with ⟨f', rest', d', a, hexc', hold, -⟩ | ⟨f', rest', hexc', hold, hcs, hdata, hcore⟩ |
    ⟨e, hexc', -⟩ | ⟨e, f', k, rest', hexc', -⟩ | ⟨e, f', rest', hexc', -⟩ |
    ⟨e, g0, g', rest', hexc', -⟩ | ⟨e, g0, rest', hexc', -⟩ | ⟨hold, -⟩
  · rw [hst] at hold; cases hold
  · rw [hst] at hold; cases hold
    simp only [stepCore] at hcore
    split at hcore
    · assumption
    · contradiction
  all_goals first
    | (rw [hexc] at hexc'; contradiction)
    | (rw [hst] at hold; contradiction)

theorem tell_step (hr : PR U u0 f0 s) {t : Nat} {rest : List (Fr (PTask α) (PFrame α φ))} {f : PFrame α φ} {w : Wk} {ch : Ch (PCh χ)}
    (hs : step (client (poolApp U)) s (.th t ch) = some s') (hw : ∃ c, Ev.registered c w.id w.n ∈ s.log) (h : InTell t rest f s w) : Told s' w ∨ InTell t rest f s' w := by
  obtain ⟨hexc, h⟩ := h
  obtain ⟨c, hc⟩ := hw
  have hc1 := ((LInv.reach hr).regd _ _ _).1 hc
  have hwf := (WF.reach hr).toRegOK
  rcases step_cl hs with ⟨f', rest', d', a, hexc', hold, -⟩ | ⟨f', rest', hexc', hold, hcs, hdata, hcore⟩ |
    ⟨e, hexc', -⟩ | ⟨e, f', k, rest', hexc', -⟩ | ⟨e, f', rest', hexc', -⟩ |
    ⟨e, g0, g', rest', hexc', -⟩ | ⟨e, g0, rest', hexc', -⟩ | ⟨hold, -⟩
  · rcases h with h | ⟨c', -, h⟩ <;> (rw [h] at hold; cases hold)
  · rcases h with h | ⟨c', h1, h⟩ <;> (rw [h] at hold; cases hold)
    · simp only [stepCore] at hcore
      split at hcore
      · contradiction
      split at hcore
      · rename_i hf
        refine .inl ⟨c, step_logm hs hc, .inl fun hi => ?_⟩
        obtain ⟨j, hj⟩ := own_back (step_eff _ s s' t ch hs) hc1.1 hi
        have := (hwf.mem _ _ hj).2.1
        rw [hc1.2.1] at this
        exact Core.find_none hf c (this ▸ hj)
      · rename_i c' hf
        have hm := hwf.mem _ _ (find_some hf)
        obtain rfl := hwf.inj c' c hm.1 hc1.1 (hm.2.1.trans hc1.2.1.symm)
        refine .inr ⟨?_, .inr ⟨c', step_logm hs hc, ?_⟩⟩
        · obtain rfl := Option.some.inj hcore
          simpa [St.setStk, St.hold, St.setCtx, upd] using hexc
        · obtain rfl := Option.some.inj hcore
          simp [St.setStk, St.stk, upd]
    · simp only [stepCore] at hcore
      split at hcore
      · obtain rfl := Option.some.inj hcore
        exact .inr ⟨hexc, .inr ⟨c', h1, h⟩⟩
      · refine .inl ⟨c', step_logm hs h1, .inr ?_⟩
        obtain rfl := Option.some.inj hcore
        simp [St.setStk, St.ev, St.setCtx]
  all_goals first
    | (rw [hexc] at hexc'; contradiction)
    | (rcases h with h | ⟨c', -, h⟩ <;> (rw [h] at hold; cases hold))

theorem call_exc {τ φ δ χ : Type} {C : Client τ φ δ χ} {s s' : St τ φ δ} {t : Nat} {ch : Ch χ} {f k : φ} {g : CF τ φ} {rest rest' : List (Frame τ φ)} (hs : step C s (.th t ch) = some s')
    (hexc : (s.thr t).exc = none) (hst : s.stk t = .client f :: rest) (hst' : s'.stk t = .core g :: .client k :: rest') (hlt : rest.length ≤ rest'.length) :
    (s'.thr t).exc = none := by
  rcases step_cl hs with ⟨f', r', d', a, hexc', hold, -, -, hact, -⟩ | ⟨f', r', hexc', hold, -⟩ |
    ⟨e, hexc', -⟩ | ⟨e, f', k', r', hexc', -⟩ | ⟨e, f', r', hexc', -⟩ |
    ⟨e, g0, g', r', hexc', -⟩ | ⟨e, g0, r', hexc', -⟩ | ⟨hold, -⟩
  · cases a <;> simp only [ActTo] at hact <;> first | exact hact.2.1 | exact hact.2.2 | skip
    rw [hst] at hold; cases hold
    rw [hact.1] at hst'
    rw [hst'] at hlt; simp at hlt; omega
  · rw [hst] at hold; cases hold
  all_goals first
    | (rw [hexc] at hexc'; contradiction)
    | (rw [hst] at hold; contradiction)

theorem AllBut.keep (hr0 : PR U u0 f0 s0) (hr : PR U u0 f0 s) {h i : Nat} {P : Wk → Prop} {lb : Lbl (PCh χ)} {sc : PSt α φ δ} (hd : DerefIn U s0 s h i) (ha : AllBut U sc s i P)
    (hs : step (client (poolApp U)) s lb = some s') : AllBut U sc s' i P :=
  ha.mono hr hs (made_deref hr0 hd) fun _ _ _ h => .inl h

theorem DRes.mono (hr0 : PR U u0 f0 s0) (hr : PR U u0 f0 s) {t : Nat} {K : DK} {lb : Lbl (PCh χ)} (h : DRes U t s0 K s) (hs : step (client (poolApp U)) s lb = some s') :
    DRes U t s0 K s' := by
  rcases h with h | ⟨i, h1, sc, h2, h3, h4⟩
  · exact .inl (h.mono hs)
  · exact .inr ⟨i, h1.mono hs, sc, h2.mono hs, h3.keep hr0 hr h1 hs, h4.mono hs⟩

theorem dPh (hr0 : PR U u0 f0 s0) (t : Nat) (K : DK) (rest : List (Fr (PTask α) (PFrame α φ))) :
    LPh (client (poolApp U)) ({ ad := { u := u0 } } : Data (PTask α) (PData α δ)) (.app (.usr f0)) t rest (DPh U t rest s0 K) (fun _ => DRes U t s0 K) where
  mono {s s' f lb} hr hs h h1 h2 h3 := by
    cases f <;> first | exact h.elim | skip
    rename_i f
    obtain ⟨hl, h⟩ := h
    refine ⟨hl.snoc hs, ?_⟩
    cases f <;> first | exact h.elim | exact trivial | exact h | skip
    case caIn i K' =>
      cases K' with
      | user => exact h.elim
      | dtor K' => exact ⟨h.1, h.2.mono hs⟩
      | mem K' =>
        obtain ⟨hK, hd, sc, hc, ha⟩ := h
        exact ⟨hK, hd.mono hs, sc, hc.mono hs, ha.keep hr0 hr hd hs⟩
    case caLoop i o l K' =>
      cases K' with
      | user => exact h.elim
      | dtor K' => exact ⟨h.1, h.2.1.mono hs, h.2.2.mono hs⟩
      | mem K' =>
        obtain ⟨hK, hd, sc, hc, ha, he⟩ := h
        exact ⟨hK, hd.mono hs, sc, hc.mono hs, ha.keep hr0 hr hd hs, he.mono hs⟩
    case caFin i K' =>
      cases K' with
      | user => exact h.elim
      | dtor K' => exact ⟨h.1, h.2.1.mono hs, h.2.2.mono hs⟩
      | mem K' =>
        obtain ⟨hK, hd, sc, hc, ha, he⟩ := h
        exact ⟨hK, hd.mono hs, sc, hc.mono hs, ha.keep hr0 hr hd hs, he.mono hs⟩
    case diIn i K' => exact ⟨h.1, h.2.1.mono hs, h.2.2.mono hs⟩
    case diStd i x ws K' =>
      obtain ⟨hK, hd, sc, hc, ha⟩ := h
      refine ⟨hK, hd.mono hs, sc, hc.mono hs, ha.mono hr hs (made_deref hr0 hd) ?_⟩
      rintro u w hw (hm | ⟨rfl, hm⟩)
      · exact .inl (.inl hm)
      refine .inl (.inr ⟨rfl, ?_⟩)
      rcases hm with hm | hm
      · exact .inl (hm.mono hr hs)
      · cases lb with
        | tick n => rw [step_tick _ s s' n hs]; exact .inr hm
        | th v ch =>
          by_cases hv : t = v
          · subst hv
            exact tell_step hr hs (worker_reg hr hw) hm
          · obtain ⟨he, hm⟩ := hm
            have := step_thr_other (FreeOK.reach hr) hv (by rcases hm with hm | ⟨c, -, hm⟩ <;> (rw [hm]; simp)) hs
            exact .inr ⟨this.2.2.1.trans he, hm.imp this.1.trans fun ⟨c, h1, h2⟩ => ⟨c, step_logm hs h1, this.1.trans h2⟩⟩
    case diEnd K' => exact ⟨h.1, h.2.mono hr0 hr hs⟩
    case diJoin i ws K' =>
      obtain ⟨hK, hd, sc, hc, ha⟩ := h
      refine ⟨hK, hd.mono hs, sc, hc.mono hs, ha.mono hr hs (made_deref hr0 hd) ?_⟩
      rintro u w hw (hm | ⟨⟨he, hst⟩, htd⟩)
      · exact .inl (.inl hm)
      · cases lb with
        | tick n => rw [step_tick _ s s' n hs]; exact .inl (.inr ⟨⟨he, hst⟩, htd⟩)
        | th v ch =>
          by_cases hv : t = v
          · subst hv
            exact .inr ⟨s, hc.2.1, Later.refl.snoc hs, ⟨u, hw⟩, join_step hs he hst, htd⟩
          · have := step_thr_other (FreeOK.reach hr) hv (by rw [hst]; simp) hs
            exact .inl (.inr ⟨⟨this.2.2.1.trans he, this.1.trans hst⟩, htd.mono hr hs⟩)
  thr {s s' f e g ch} hr h hg hs hd := by
    cases f <;> first | exact h.elim | skip
    rename_i f
    simp only [client, sThrow, Option.map_eq_some_iff] at hg
    obtain ⟨g, hg, rfl⟩ := hg
    refine ⟨h.1.snoc hs, ?_⟩
    rcases pool_throw hg with ⟨g, g', rfl, rfl⟩ | ⟨i, l, cur, K', rfl, rfl⟩ | ⟨i, o, K', rfl, rfl⟩ | ⟨i, o, l, K', rfl, rfl⟩
    · exact h.2.elim
    · exact h.2.elim
    all_goals exact trivial
  cl {s s' f ch d' x} hr hst hexc h hs hstep hdata := by
    have he := step_ext hs
    cases client_cs hstep with
    | sync f sd x hS => cases hS <;> exact h.elim
    | app g ad sa hA =>
      have hsd : s'.data.sd = s.data.sd := by rw [hdata]
      have had : s'.data.ad = ad := by rw [hdata]
      have jI := fun i => ji hr i
      have jI' := fun i => ji (hr.step hs) i
      obtain ⟨hl, h⟩ := h
      have hl' := hl.snoc hs
      have hder : ∀ {h i : Nat} {o : PObj}, s.data.ad.obj h = some o → o.impl = some i → DerefIn U s0 s' h i := fun ho hi =>
        ⟨s, hl, by simp [PData.deref, ho, hi], Later.refl.snoc hs⟩
      have hemp : ∀ {h : Nat} {o : PObj}, s.data.ad.obj h = some o → o.impl = none → Empty U s0 s' h := fun ho hi => ⟨s, hl, ⟨_, ho, hi⟩, Later.refl.snoc hs⟩
      cases pool_pc hA with
      | usr g u wa hU => exact h.elim
      | ck => exact h.elim
      | ps f d' a hf hb hP =>
        clear hA hstep
        rw [had] at jI'
        cases hP <;> first | exact h.elim | exact trivial | exact fun _ => ⟨hl', trivial⟩ | skip
        case caIn i K' =>
          cases K' with
          | user => exact h.elim
          | dtor K' =>
            refine fun _ => ⟨hl', h.1, h.2.mono hs, _, _, logd_new (U := U) hl (by rw [had]), fun id hp => ?_, fun id hp => ?_⟩
            · obtain ⟨j, hj, -⟩ := (jI' i).pending.1 hp
              simp [PData.upd, Sync.set] at hj
            · obtain ⟨j, hj, rfl, hc⟩ := (jI i).pending.1 hp
              obtain ⟨c, hc⟩ := Option.isSome_iff_exists.1 hc
              exact ⟨c, drop_mem hj hc, .inl (List.mem_filterMap.2 ⟨j, hj, hc⟩)⟩
          | mem K' =>
            obtain ⟨hK, hd, sc, hc0, ha⟩ := h
            refine fun _ => ⟨hl', hK, hd.mono hs, sc, hc0.mono hs, ha.keep hr0 hr hd hs, s, hc0.2.1, Later.refl.snoc hs, made_deref hr0 hd, ha, _, _, logd_new (U := U) Later.refl (by rw [had]), fun id hp => ?_, fun id hp => ?_⟩
            · obtain ⟨j, hj, -⟩ := (jI' i).pending.1 hp
              simp [PData.upd, Sync.set] at hj
            · obtain ⟨j, hj, rfl, hc⟩ := (jI i).pending.1 hp
              obtain ⟨c, hc⟩ := Option.isSome_iff_exists.1 hc
              exact ⟨c, drop_mem hj hc, .inl (List.mem_filterMap.2 ⟨j, hj, hc⟩)⟩
        case caLoop i o c l K' =>
          cases K' with
          | user => exact h.elim
          | dtor K' =>
            refine fun _ => ⟨hl', h.1, h.2.1.mono hs, (h.2.2.imp ?_).mono hs⟩
            rintro c' (h1 | rfl | h1)
            · rcases List.mem_cons.1 h1 with rfl | h1
              · exact .inr (.inl rfl)
              · exact .inl h1
            · exact .inr (.inr (((pr_ok hr).top t _ _ hst).1 c'.p rfl).1)
            · exact .inr (.inr h1)
          | mem K' =>
            obtain ⟨hK, hd, sc, hc0, ha, he⟩ := h
            refine fun _ => ⟨hl', hK, hd.mono hs, sc, hc0.mono hs, ha.keep hr0 hr hd hs, (he.imp ?_).mono hs⟩
            rintro c' (h1 | rfl | h1)
            · rcases List.mem_cons.1 h1 with rfl | h1
              · exact .inr (.inl rfl)
              · exact .inl h1
            · exact .inr (.inr (((pr_ok hr).top t _ _ hst).1 c'.p rfl).1)
            · exact .inr (.inr h1)
        case caEnd i o K' =>
          cases K' with
          | user => exact h.elim
          | dtor K' =>
            refine fun _ => ⟨hl', h.1, h.2.1.mono hs, (h.2.2.imp ?_).mono hs⟩
            rintro c' (h1 | rfl | h1)
            · cases h1
            · exact .inr (.inr (((pr_ok hr).top t _ _ hst).1 c'.p rfl).1)
            · exact .inr (.inr h1)
          | mem K' =>
            obtain ⟨hK, hd, sc, hc0, ha, he⟩ := h
            refine fun _ => ⟨hl', hK, hd.mono hs, sc, hc0.mono hs, ha.keep hr0 hr hd hs, (he.imp ?_).mono hs⟩
            rintro c' (h1 | rfl | h1)
            · cases h1
            · exact .inr (.inr (((pr_ok hr).top t _ _ hst).1 c'.p rfl).1)
            · exact .inr (.inr h1)
        case meFin i K' =>
          obtain ⟨hK, hd, sc, hc0, ha, he⟩ := h
          exact fun _ => ⟨hl', hK, .inr ⟨i, hd.mono hs, sc, hc0.mono hs, ha.keep hr0 hr hd hs, he.mono hs⟩⟩
        case caFin i K' => exact fun _ => ⟨hl', h.1, h.2.1.mono hs, h.2.2.mono hs⟩
        case delNo h0 o ho hi hd =>
          obtain rfl : K = _ := h
          exact fun _ => ⟨hl', rfl, .inl (hemp ho hi)⟩
        case delIn h0 o i hq ho hi hd =>
          obtain rfl : K = _ := h
          exact fun _ => ⟨hl', rfl, hder ho hi⟩
        case diIn i K' =>
          refine fun _ => ⟨hl', h.1, h.2.1.mono hs, s, ⟨hl, Later.refl.snoc hs, h.2.2⟩, fun u w hw => .inl (.inl ?_)⟩
          have := worker_old hr hs (made_deref hr0 h.2.1) hw
          exact (wkI hr).wk this (not_parted hr (t := t) (K := K') (by rw [hst]; exact List.mem_cons_self))
        case diMem i K' =>
          obtain ⟨hK, hd, sc, hc0, ha⟩ := h
          refine fun _ => ⟨hl', hK, hd.mono hs, sc, hc0.mono hs, ha.mono hr hs (made_deref hr0 hd) ?_⟩
          rintro u w hw (hm | ⟨⟨-, hm⟩, -⟩)
          · cases hm
          · rw [hst] at hm; cases hm
        case diJoin i x ws K' =>
          obtain ⟨hK, hd, sc, hc0, ha⟩ := h
          refine fun hst' => ⟨hl', hK, hd.mono hs, sc, hc0.mono hs, ha.mono hr hs (made_deref hr0 hd) ?_⟩
          rintro u w hw (hm | ⟨⟨-, hm⟩, -⟩)
          · rcases List.mem_cons.1 hm with rfl | hm
            · exact .inl (.inr ⟨rfl, .inr ⟨call_exc hs hexc hst hst' (Nat.le_refl _), .inl hst'⟩⟩)
            · exact .inl (.inl hm)
          · rw [hst] at hm; cases hm
        case diStd i x ws K' hx =>
          obtain ⟨hK, hd, sc, hc0, ha⟩ := h
          refine fun hst' => ⟨hl', hK, hd.mono hs, sc, hc0.mono hs, ha.mono hr hs (made_deref hr0 hd) ?_⟩
          rintro u w hw (hm | ⟨rfl, hm⟩)
          · exact .inl (.inl hm)
          · rcases hm with hm | ⟨-, hm | ⟨c, -, hm⟩⟩
            · exact .inl (.inr ⟨⟨call_exc hs hexc hst hst' (Nat.le_refl _), hst'⟩, hm.mono hr hs⟩)
            · rw [hst] at hm; cases hm
            · rw [hst] at hm; cases hm
        case diEnd h0 =>
          obtain ⟨rfl, h⟩ := h
          exact h.mono hr0 hr hs
        case maEnd =>
          obtain ⟨rfl, h⟩ := h
          exact h.mono hr0 hr hs
        case maSelf h0 => exact absurd rfl h.2
        case maNo =>
          obtain ⟨rfl, -⟩ := h
          exact fun _ => ⟨hl', rfl, .inl (hemp (by assumption) (by assumption))⟩
        case maIn =>
          obtain ⟨rfl, -⟩ := h
          exact fun _ => ⟨hl', rfl, hder (by assumption) (by assumption)⟩

/-- A frame of a worker beyond the check for an exit notification. -/
def PBody : SFrame (PTask α) (PFrame α φ) → Prop
  | .app (.ckBody _) => True
  | .app (.ckUnl _ _ _) => True
  | .app (.ckGo _ _ _) => True
  | .app (.ckRan _ _ _) => True
  | _ => False

theorem body_run (k : STask (PTask α)) : ¬ PBody ((client (poolApp U)).run k) := by
  cases k with
  | noop => exact id
  | fut p a => exact id
  | app a => cases a <;> exact id

theorem body_exit {v : View} {d : Data (PTask α) (PData α δ)} {f : SFrame (PTask α) (PFrame α φ)} {rv : Val} {ch : Ch (PCh χ)} {d' : Data (PTask α) (PData α δ)}
    {a : Act (STask (PTask α)) (SFrame (PTask α) (PFrame α φ))} (hb : ¬ PBody f) (ho : (wo U u0 f0).o f ≠ none) (hv : v.exit = true)
    (hs : (client (poolApp U)).step v d f rv ch = some (d', a)) : a.cont = none := by
  cases f <;> first | exact absurd rfl ho | skip
  rename_i f
  cases f <;> first | exact absurd rfl ho | exact absurd trivial hb | skip
  rename_i x
  cases client_cs hs with
  | sync f sd x hS => exact (SS.not_app hS).elim
  | app g ad sa hA =>
    clear hs
    cases pool_pc hA with
    | ps f d' a hf hb hP =>
      clear hA
      cases hP with
      | ckExit => rfl
      | ckIn x hx => rw [hv] at hx; cases hx
      | bad => rfl

theorem took_all (hr0 : PR U u0 f0 s0) (hr : PR U u0 f0 s) {i : Nat} (h : AllBut U s0 s i (fun _ => False)) {t L id : Nat} {c : Call α} {hd : Hd}
    (hm : .took t i L id c hd ∈ s.data.ad.plog) : rdy s.data.sd c.p := by
  have key : ∀ {x : Tok} {id'} {f : PFrame α φ}, (∃ d, f = .ckUnl x id' d ∨ f = .ckGo x id' d ∨ ∃ c, f = .ckRan x id' c) → Took s.data.ad x.i id' c → .client (.app f) ∈ s.stk t →
      False := by
    intro x id' f hf ht hms
    obtain ⟨t2, g2, h4⟩ := ht.schd hr
    obtain ⟨t3, g3, h5⟩ := took_schd hr hm
    obtain ⟨⟨-, rfl, rfl, -, -⟩, -⟩ := sch_uniq hr (x := c.p) h5 h4 (.inr rfl) (.inr rfl)
    have hfo : (wo U u0 f0).o (.app f) = some x.w := by rcases hf with ⟨d, rfl | rfl | ⟨c, rfl⟩⟩ <;> rfl
    have hfb : PBody (.app f : SFrame (PTask α) (PFrame α φ)) := by rcases hf with ⟨d, rfl | rfl | ⟨c, rfl⟩⟩ <;> trivial
    obtain ⟨c0, h6, h7, t', h8⟩ := ck_run hr (x := x) (.inr ⟨id, hf⟩) hms
    rcases h t' ⟨x.L, t, x.w⟩ h8 with h9 | ⟨s2, h9, h10, ⟨u, h11⟩, h12, c1, h13, h14⟩
    · exact h9.elim
    have hr2 : PR U u0 f0 s2 := h9.ind (P := fun y => PR U u0 f0 y) (fun hs h => h.step hs) hr0
    have hfree := FreeOK.reach hr2 t (by rw [h12]; simp)
    rcases h14 with h14 | h14
    · have hg : (wo U u0 f0).Gone t c1 x.w s2 := ⟨h13, h14, by simp [St.loc, hfree.2.1], fun f hf => by simp [St.stk, hfree.1] at hf⟩
      have : PR U u0 f0 s ∧ (wo U u0 f0).Gone t c1 x.w s := h10.ind (P := fun y => PR U u0 f0 y ∧ (wo U u0 f0).Gone t c1 x.w y)
        (fun hs h => ⟨h.1.step hs, (wo U u0 f0).gone (fun _ h => h) h.1 hs h.2⟩) ⟨hr2, hg⟩
      exact this.2.fr _ hms hfo
    · have hg : (wo U u0 f0).Out PBody t c1 x.w s2 := ⟨h13, h14, fun g r f hf => by simp [St.stk, hfree.1] at hf, fun f r hf => by simp [St.stk, hfree.1] at hf⟩
      have : PR U u0 f0 s ∧ (wo U u0 f0).Out PBody t c1 x.w s := h10.ind (P := fun y => PR U u0 f0 y ∧ (wo U u0 f0).Out PBody t c1 x.w y)
        (fun hs h => ⟨h.1.step hs, (wo U u0 f0).out (fun _ h => h) body_run body_exit h.1 hs h.2⟩) ⟨hr2, hg⟩
      obtain ⟨g, r, hst⟩ : ∃ g r, s.stk t = g :: r := by
        cases hc : s.stk t with
        | nil => rw [hc] at hms; cases hms
        | cons g r => exact ⟨g, r, rfl⟩
      rw [hst] at hms
      rcases List.mem_cons.1 hms with rfl | hms
      · exact (this.2.top _ _ hst hfo).1 hfb
      · exact this.2.tail _ _ _ hst hms hfo
  rcases took_over hr t c ⟨_, _, _, _, hm⟩ with h1 | ⟨-, x, id', rest, h1⟩ | ⟨x, id', h1⟩
  · exact h1
  · exfalso
    rcases h1 with h1 | h1 | h1
    · have hms : .client (.app (.ckUnl x id' (some c))) ∈ s.stk t := by rw [h1]; simp
      exact key ⟨_, .inl rfl⟩ ((tyF hr (f := .ckUnl x id' (some c)) hms).2 c rfl) hms
    · have hms : .client (.app (.ckGo x id' (some c))) ∈ s.stk t := by rw [h1]; simp
      exact key ⟨_, .inr (.inl rfl)⟩ ((tyF hr (f := .ckGo x id' (some c)) hms).2 c rfl) hms
    · have hms : .client (.app (.ckGo x id' (some c))) ∈ s.stk t := by rw [h1]; simp
      exact key ⟨_, .inr (.inl rfl)⟩ ((tyF hr (f := .ckGo x id' (some c)) hms).2 c rfl) hms
  · exact False.elim (key ⟨none, .inr (.inr ⟨c, rfl⟩)⟩ (tyF hr (f := .ckRan x id' c) h1).2 h1)

end
end Pool
end Itc
