import Verif.Props.Ready

/-!
# Mutual exclusion: C26, C27

For every application code `A` (all numbers of threads and mutexes) and every schedule. Ids are identities of registered threads: no two
threads ever get the same (C01), an unregistered thread has id 0.
-/
namespace Itc
open Core Sync
section
variable {α φ δ χ : Type} {A : App α φ δ χ} {ad : δ} {i0 : φ} {s s' s0 : SSt α φ δ}

/-! ## Specification vocabulary -/

/-- In the history `log` (newest first) the mutex `m` was acquired under id `i` and not released under that id since. An acquisition is the
    moment `test_and_set` succeeds (mutex.hpp:27, :46), before lock or try_lock returns; a release is the moment `flag_.clear()` (mutex.hpp:71),
    after unlock was called. -/
def Owned (log : List SEv) (m i : Nat) : Prop :=
  ∃ l1 t l2, log = l1 ++ .acq t m i :: l2 ∧ ∀ u, .rel u m i ∉ l1

/-- No unregistered thread has released the mutex. -/
def NoAnon (log : List SEv) (m : Nat) : Prop := ∀ t, .rel t m 0 ∉ log

/-! ## The history of one mutex -/

/-- Id of the newest acquisition if nothing was released since. -/
def cur (m : Nat) : List SEv → Option Nat
  | [] => none
  | .acq _ n i :: l => if n = m then some i else cur m l
  | .rel _ n _ :: l => if n = m then none else cur m l
  | _ :: l => cur m l

/-- Acquisitions and releases alternate and match. -/
def good (m : Nat) : List SEv → Prop
  | [] => True
  | .acq _ n _ :: l => (n = m → cur m l = none) ∧ good m l
  | .rel _ n i :: l => (n = m → cur m l = some i) ∧ good m l
  | _ :: l => good m l

theorem Owned.of_cur {m i : Nat} : ∀ {log : List SEv}, cur m log = some i → Owned log m i
  | [], h => by cases h
  | e :: l, h => by
    have keep : (∀ u, e ≠ .rel u m i) → cur m l = some i → Owned (e :: l) m i := by
      intro h1 h2
      obtain ⟨l1, t, l2, rfl, h3⟩ := Owned.of_cur h2
      refine ⟨e :: l1, t, l2, rfl, ?_⟩
      intro u hu
      rcases List.mem_cons.1 hu with h4 | h4
      · exact h1 u h4.symm
      · exact h3 u h4
    cases e <;> first
      | exact keep (fun _ => by simp) h
      | skip
    · rename_i t n j
      simp only [cur] at h
      split at h
      · rename_i hn; subst hn; cases h; exact ⟨[], t, l, rfl, by simp⟩
      · exact keep (fun _ => by simp) h
    · rename_i t n j
      simp only [cur] at h
      split at h
      · cases h
      · rename_i hn; exact keep (fun u h4 => hn (by cases h4; rfl)) h

theorem Owned.cur {m i : Nat} : ∀ {log : List SEv}, good m log → Owned log m i → cur m log = some i
  | [], _, h => by obtain ⟨l1, t, l2, h, -⟩ := h; simp at h
  | e :: l, hg, h => by
    obtain ⟨l1, t, l2, h1, h2⟩ := h
    cases l1 with
    | nil => simp only [List.nil_append, List.cons.injEq] at h1; obtain ⟨rfl, rfl⟩ := h1; simp [Itc.cur]
    | cons x l1 =>
      simp only [List.cons_append, List.cons.injEq] at h1
      obtain ⟨rfl, rfl⟩ := h1
      have ih : good m (l1 ++ .acq t m i :: l2) → Itc.cur m (l1 ++ .acq t m i :: l2) = some i :=
        fun hg => Owned.cur hg ⟨l1, t, l2, rfl, fun u hu => h2 u (by simp [hu])⟩
      cases e <;> first
        | exact ih hg
        | skip
      · rename_i u n j
        simp only [good] at hg
        simp only [Itc.cur]
        split
        · rename_i hn; rw [ih hg.2] at hg; exact absurd (hg.1 hn) (by simp)
        · exact ih hg.2
      · rename_i u n j
        simp only [good] at hg
        simp only [Itc.cur]
        split
        · rename_i hn
          have := hg.1 hn
          rw [ih hg.2] at this
          cases this
          subst hn
          exact absurd (List.mem_cons_self) (h2 u)
        · exact ih hg.2

/-- Events that do not concern the mutex. -/
theorem cur_other {m : Nat} {e : SEv} {l : List SEv} (h1 : ∀ t i, e ≠ .acq t m i) (h2 : ∀ t i, e ≠ .rel t m i) :
    cur m (e :: l) = cur m l ∧ (good m (e :: l) ↔ good m l) := by
  cases e <;> first | exact ⟨rfl, Iff.rfl⟩ | skip
  · rename_i t n i
    have : n ≠ m := fun h => h1 t i (h ▸ rfl)
    simp [cur, good, this]
  · rename_i t n i
    have : n ≠ m := fun h => h2 t i (h ▸ rfl)
    simp [cur, good, this]

/-! ## Frames with nothing above them -/

def leafF : SFrame α φ → Prop
  | .mlTry _ _ => True
  | .mlChk _ _ => True
  | .mlOwn _ _ => True
  | .mtOwn _ => True
  | .muOwn _ _ => True
  | .muFlag _ _ => True
  | _ => False

theorem leaf_adj {g : SFrame α φ} (h : leafF g) (x : Fr α φ) : ¬ Adj (.client g) x := by
  cases g <;> first | exact False.elim h | exact id

theorem leaf_triv {g : SFrame α φ} (h : leafF g) : ¬ trivF g := by
  cases g <;> first | exact False.elim h | exact id

/-- Where such a frame on top comes from: it was there, or its thread went there. -/
theorem leaf_origin (hr : SR A ad i0 s) {l : Lbl χ} (hs : step (client A) s l = some s') {u : Nat} {g : SFrame α φ} {r : List (Fr α φ)}
    (hst : s'.stk u = .client g :: r) (hg : leafF g) :
    ((∀ ch, l ≠ .th u ch) ∧ s.stk u = .client g :: r) ∨ ∃ ch f, l = .th u ch ∧ s.stk u = .client f :: r ∧ (s.thr u).exc = none ∧
      SS A.run A.destroy (s.view u) s.data.sd (s.thr u).rv f s'.data.sd (.goto g) := by
  cases l with
  | tick n => rw [step_tick _ s s' n hs] at hst; exact .inl ⟨by simp, hst⟩
  | th t ch =>
    by_cases hu : u = t
    · right
      subst hu
      have hch := (stk_ok hr).chain u
      have hcd := codes hr
      rcases step_cl hs with ⟨f, rest, d', a, hexc', hold, hstep, hdata, hact, -⟩ | ⟨f, rest, hexc', hold, hcs, hdata, -⟩ | ⟨e, hexc', hst', -, he', hdata, -⟩ |
        ⟨e, f, k, rest, hexc', hold, hf, hst', he', hdata, -⟩ | ⟨e, f, rest, hexc', hold, hf, hst', he', hdata, -⟩ |
        ⟨e, g', g'', rest, hexc', hold, hg', hst', he', hdata, -⟩ | ⟨e, g', rest, hexc', hold, hg', hst', he', hdata, -⟩ | ⟨hold, hst', he', hdata, -⟩
      · rw [hold] at hch
        cases client_cs hstep with
        | app f0 ad' sa hA =>
          cases sa <;> simp only [liftAct, ActTo] at hact
          · rw [hact.1] at hst; cases hst; exact hg.elim
          · rw [hact.1] at hst; cases hst; exact hg.elim
          · rw [hact.1] at hst; cases hst
          · rename_i api k
            rw [hact.1] at hst; cases hst
            cases api <;> exact hg.elim
          · rw [hact.1] at hst; subst hst; exact absurd hch.1 (leaf_adj hg _)
          · rw [hact.1] at hst; subst hst; exact absurd hch.1 (leaf_adj hg _)
          · rw [hact.1, hold] at hst; cases hst; exact hg.elim
        | sync f sd a hS =>
          cases a <;> simp only [ActTo] at hact
          · rw [hact.1] at hst; cases hst
            exact ⟨ch, f, rfl, hold, hexc', by rw [hdata]; exact hS⟩
          · rw [hact.1] at hst; cases hst
            exfalso
            generalize hc : (Act.push g _ : Act (STask α) (SFrame α φ)) = a at hS
            cases hS
            case laRet K c => cases K <;> simp only [laNext] at hc <;> split at hc <;> first | (cases hc; done) | (cases hc; exact hg)
            case laEnd K c => cases K <;> simp only [laNext] at hc <;> first | (cases hc; done) | (cases hc; exact hg)
            all_goals first | (cases hc; done) | (cases hc; exact hg)
          · rw [hact.1] at hst; cases hst
          · rw [hact.1] at hst; subst hst; exact absurd hch.1 (leaf_adj hg _)
          · rw [hact.1] at hst; subst hst; exact absurd hch.1 (leaf_adj hg _)
          · rw [hact.1, hold] at hst; cases hst
            exfalso
            generalize hc : (Act.terminate : Act (STask α) (SFrame α φ)) = a at hS
            cases hS
            case laRet K c => exact hg
            case laEnd K c => exact hg
            all_goals first | (cases hc; done) | exact hg
      · rw [hold] at hch
        rcases hcs with ⟨new, h, hst', -⟩ | ⟨v, hv, hst', hrv, -⟩ | ⟨e, -, hst', he⟩ | ⟨-, hst', -⟩
        · rw [hst'] at hst
          have hco := hcd.code u f (by rw [hold]; simp)
          have no : ∀ {x}, x = g → trivF x → False := fun h1 h2 => leaf_triv hg (h1 ▸ h2)
          have hrun : ∀ k, trivF ((client A).run k) := fun k => by cases k <;> trivial
          have hdes : ∀ k, trivF ((client A).destroy k) := fun k => by cases k <;> trivial
          exfalso
          cases h <;> simp only [List.cons_append, List.nil_append, List.cons.injEq, reduceCtorEq, false_and, Frame.client.injEq] at hst <;>
              (try obtain ⟨hst, -⟩ := hst) <;> first
              | exact no hst (hrun _)
              | exact no hst (hdes _)
              | exact no hst (hcd.cb _ ‹_›)
              | exact no hst (hco _ rfl 0)
        · rw [hst'] at hst; subst hst; exact absurd hch.1 (leaf_adj hg _)
        · rw [hst'] at hst; subst hst; exact absurd hch.1 (leaf_adj hg _)
        · rw [hst', hold] at hst; cases hst
      · rw [hst'] at hst
        exact absurd (nt_exc hr hst (by cases g <;> first | exact hg.elim | trivial)) (by rw [hexc']; simp)
      · rw [hst'] at hst; cases hst
        rename_i hx
        exact absurd (by cases k <;> trivial) (leaf_triv hg)
      · rw [hold] at hch; rw [hst'] at hst; subst hst; exact absurd hch.1 (leaf_adj hg _)
      · rw [hst'] at hst; cases hst
        exfalso
        have hg' : sThrow A.onThrow g' e = some g := hg'
        cases g' <;> first
          | (cases hg'; done)
          | (have hg' := Option.some.inj hg'; subst hg'; exact hg)
          | skip
        simp only [sThrow, Option.map_eq_some_iff] at hg'
        obtain ⟨x, -, rfl⟩ := hg'
        exact hg
      · rw [hold] at hch; rw [hst'] at hst; subst hst; exact absurd hch.1 (leaf_adj hg _)
      · rw [hst'] at hst; cases hst
    · refine .inl ⟨by intro ch h; cases h; exact hu rfl, ?_⟩
      rcases hr.stk_oth hu hs with ⟨h, -⟩ | ⟨f, rest, h, -, h4, h5, -⟩
      · rw [← h]; exact hst
      · rw [h5] at hst; cases hst
        exact absurd ((codes hr).code t (.spawnIn u g) (by rw [h]; simp) u) (leaf_triv hg)

/-- Where a frame of this layer in a stack comes from. -/
theorem mem_origin (hr : SR A ad i0 s) {l : Lbl χ} (hs : step (client A) s l = some s') {u : Nat} {g : SFrame α φ}
    (hm : .client g ∈ s'.stk u) : .client g ∈ s.stk u ∨ trivF g ∨ (∃ api : SApi α, g = api.entry) ∨
      (∃ ch f rest a, l = .th u ch ∧ s.stk u = .client f :: rest ∧ (s.thr u).exc = none ∧
        SS A.run A.destroy (s.view u) s.data.sd (s.thr u).rv f s'.data.sd a ∧ (a.cont = some g ∨ a.callee = some (.client g))) ∨
      ∃ f rest e, s.stk u = .client f :: rest ∧ sThrow A.onThrow f e = some g := by
  cases l with
  | tick n => rw [step_tick _ s s' n hs] at hm; exact .inl hm
  | th t ch =>
    by_cases hu : u = t
    · subst hu
      have hcd := codes hr
      rcases step_cl hs with ⟨f, rest, d', a, hexc', hold, hstep, hdata, hact, -⟩ | ⟨f, rest, hexc', hold, hcs, hdata, -⟩ | ⟨e, hexc', hst', -, he', hdata, -⟩ |
        ⟨e, f, k, rest, hexc', hold, hf, hst', he', hdata, -⟩ | ⟨e, f, rest, hexc', hold, hf, hst', he', hdata, -⟩ |
        ⟨e, g', g'', rest, hexc', hold, hg', hst', he', hdata, -⟩ | ⟨e, g', rest, hexc', hold, hg', hst', he', hdata, -⟩ | ⟨hold, hst', he', hdata, -⟩
      · have hrest : .client g ∈ rest → .client g ∈ s.stk u := fun h => by rw [hold]; simp [h]
        cases client_cs hstep with
        | app f0 ad' sa hA =>
          cases sa <;> simp only [liftAct, ActTo] at hact <;> rw [hact.1] at hm <;>
            try simp only [List.mem_cons, Frame.client.injEq, reduceCtorEq, false_or] at hm
          · rcases hm with rfl | hm
            · exact .inr (.inl trivial)
            · exact .inl (hrest hm)
          · rcases hm with rfl | rfl | hm
            · exact .inr (.inl trivial)
            · exact .inr (.inl trivial)
            · exact .inl (hrest hm)
          · rcases hm with rfl | hm
            · exact .inr (.inl trivial)
            · exact .inl (hrest hm)
          · rcases hm with rfl | rfl | hm
            · exact .inr (.inr (.inl ⟨_, rfl⟩))
            · exact .inr (.inl trivial)
            · exact .inl (hrest hm)
          · exact .inl (hrest hm)
          · exact .inl (hrest hm)
          · exact .inl hm
        | sync f sd a hS =>
          have new : a.cont = some g ∨ a.callee = some (.client g) → _ := fun h =>
            (.inr (.inr (.inr (.inl ⟨ch, f, rest, a, rfl, hold, hexc', by rw [hdata]; exact hS, h⟩))) :
              .client g ∈ s.stk u ∨ trivF g ∨ (∃ api : SApi α, g = api.entry) ∨
              (∃ ch' f rest a, Lbl.th u ch = .th u ch' ∧ s.stk u = .client f :: rest ∧ (s.thr u).exc = none ∧
                SS A.run A.destroy (s.view u) s.data.sd (s.thr u).rv f s'.data.sd a ∧ (a.cont = some g ∨ a.callee = some (.client g))) ∨
              ∃ f rest e, s.stk u = .client f :: rest ∧ sThrow A.onThrow f e = some g)
          cases a <;> simp only [ActTo] at hact <;> rw [hact.1] at hm <;>
            try simp only [List.mem_cons, Frame.client.injEq, reduceCtorEq, false_or] at hm
          · rcases hm with rfl | hm
            · exact new (.inl rfl)
            · exact .inl (hrest hm)
          · rcases hm with rfl | rfl | hm
            · exact new (.inr rfl)
            · exact new (.inl rfl)
            · exact .inl (hrest hm)
          · rcases hm with rfl | hm
            · exact new (.inl rfl)
            · exact .inl (hrest hm)
          · exact .inl (hrest hm)
          · exact .inl (hrest hm)
          · exact .inl hm
      · have hrest : .client g ∈ rest → .client g ∈ s.stk u := fun h => by rw [hold]; simp [h]
        rcases hcs with ⟨new, h, hst', -⟩ | ⟨v, hv, hst', hrv, -⟩ | ⟨e, -, hst', he⟩ | ⟨-, hst', -⟩
        · rw [hst'] at hm
          rcases List.mem_append.1 hm with hm | hm
          · right; left
            have hco := hcd.code u f (by rw [hold]; simp)
            have hrun : ∀ k, trivF ((client A).run k) := fun k => by cases k <;> trivial
            have hdes : ∀ k, trivF ((client A).destroy k) := fun k => by cases k <;> trivial
            cases h <;> simp only [List.mem_cons, List.not_mem_nil, or_false, Frame.client.injEq, reduceCtorEq] at hm <;>
              (try subst hm) <;> first
              | exact hrun _
              | exact hdes _
              | exact hcd.cb _ ‹_›
              | exact hco _ rfl 0
          · exact .inl (hrest hm)
        · rw [hst'] at hm; exact .inl (hrest hm)
        · rw [hst'] at hm; exact .inl (hrest hm)
        · rw [hst'] at hm; exact .inl hm
      · rw [hst'] at hm; exact .inl hm
      · rw [hst'] at hm
        simp only [List.mem_cons, Frame.client.injEq, reduceCtorEq, false_or] at hm
        rcases hm with rfl | hm
        · right; left; cases k <;> trivial
        · exact .inl (by rw [hold]; simp [hm])
      · rw [hst'] at hm; exact .inl (by rw [hold]; simp [hm])
      · rw [hst'] at hm
        simp only [List.mem_cons, Frame.client.injEq] at hm
        rcases hm with rfl | hm
        · exact .inr (.inr (.inr (.inr ⟨_, _, _, hold, hg'⟩)))
        · exact .inl (by rw [hold]; simp [hm])
      · rw [hst'] at hm; exact .inl (by rw [hold]; simp [hm])
      · rw [hst'] at hm; simp at hm
    · rcases hr.stk_oth hu hs with ⟨h, -⟩ | ⟨f, rest, h, -, h4, h5, -⟩
      · rw [h] at hm; exact .inl hm
      · rw [h5] at hm
        simp only [List.mem_cons, List.not_mem_nil, or_false, Frame.client.injEq] at hm
        subst hm
        exact .inr (.inl ((codes hr).code t (.spawnIn u g) (by rw [h]; simp) u))

/-! ## Whose ids -/

/-- The id in the frames of `lock`: what get_id returned on entry. -/
def lockId : SFrame α φ → Option Nat
  | .mlTry _ i => some i
  | .mlChk _ i => some i
  | .mlOwn _ i => some i
  | .swIn (.mtx _ i) => some i
  | .swLoop (.mtx _ i) _ _ => some i
  | .swChk (.mtx _ i) _ _ => some i
  | .swBefore (.mtx _ i) _ _ => some i
  | .swAfter (.mtx _ i) _ _ => some i
  | .swRem (.mtx _ i) _ _ _ => some i
  | _ => none

/-- `i` is or was the id of thread `t`. -/
def Ident (s : SSt α φ δ) (t i : Nat) : Prop := ∃ c, c < s.nctx ∧ (s.ctxs c).id = i ∧ (s.ctxs c).native = t

theorem Ident.of_id (hr : SR A ad i0 s) {t : Nat} (h : s.getId t ≠ 0) : Ident s t (s.getId t) := by
  have hwf := WF.reach hr
  simp only [St.getId] at h ⊢
  split at h
  · contradiction
  · rename_i c hc
    have := hwf.loc t c hc
    exact ⟨c, this.1, rfl, this.2.1⟩

theorem Ident.uniq (hr : SR A ad i0 s) {t u i : Nat} (h : Ident s t i) (h' : Ident s u i) : t = u := by
  obtain ⟨c, h1, h2, h3⟩ := h
  obtain ⟨c', h1', h2', h3'⟩ := h'
  have := (WF.reach hr).inj c c' h1 h1' (h2.trans h2'.symm)
  subst this
  exact h3.symm.trans h3'

theorem Ident.step (_hr : SR A ad i0 s) {l : Lbl χ} (hs : step (client A) s l = some s') {t i : Nat} (h : Ident s t i) : Ident s' t i := by
  cases l with
  | tick n => rw [step_tick _ s s' n hs]; exact h
  | th u ch =>
    obtain ⟨c, h1, h2, h3⟩ := h
    have he := step_eff (client A) s s' u ch hs
    have hsame := same_id he c h1
    exact ⟨c, Nat.lt_of_lt_of_le h1 (Core.nctx_mono he), hsame.2.trans h2, hsame.1.trans h3⟩

theorem getId_still (hr : SR A ad i0 s) {l : Lbl χ} (hs : step (client A) s l = some s') {t : Nat} (hne : s.stk t ≠ [])
    (hl : ∀ ch, l ≠ .th t ch) : s'.getId t = s.getId t := by
  have hl' := (still hr hne hs hl).2.2.2.1
  simp only [St.getId, hl']
  split
  · rfl
  · rename_i c hc
    have hlt := ((WF.reach hr).loc t c hc).1
    cases l with
    | tick n => rw [step_tick _ s s' n hs]
    | th u ch => exact (same_id (step_eff (client A) s s' u ch hs) c hlt).2

theorem getId_own {t : Nat} {ch : Ch χ} {f : SFrame α φ} {rest : List (Fr α φ)}
    (hst : s.stk t = .client f :: rest) (hs : Core.step (client A) s (.th t ch) = some s') (he : (s.thr t).exc = none) :
    s'.getId t = s.getId t := by
  obtain ⟨-, h1, h2, -⟩ := own_notified hst hs he
  simp only [St.getId, h1, h2]

theorem entry_lockId (api : SApi α) : lockId (φ := φ) api.entry = none := by cases api <;> rfl

/-- Ids in the frames of `lock` are ids of the thread. -/
theorem lock_ident (hr : SR A ad i0 s) : ∀ {t : Nat} {f : SFrame α φ} {i : Nat}, .client f ∈ s.stk t → lockId f = some i → i ≠ 0 → Ident s t i := by
  refine Reach.induct (fun s => ∀ {t : Nat} {f : SFrame α φ} {i : Nat}, .client f ∈ s.stk t → lockId f = some i → i ≠ 0 → Ident s t i) ?_ ?_ hr
  · intro t f i hm hf
    by_cases ht : t = 0
    · subst ht; simp [Core.init, St.stk] at hm; subst hm; cases hf
    · simp [Core.init, St.stk, upd_ne _ _ ht] at hm
  · intro s l s' hr ih hs t g i hm hg hi
    rcases mem_origin hr hs hm with h | h | ⟨api, rfl⟩ | ⟨ch, f, rest, a, rfl, hst, he, hS, ha⟩ | ⟨f, rest, e, hst, hf⟩
    · exact (ih h hg hi).step hr hs
    · cases g <;> first | exact h.elim | (cases hg; done)
    · rw [entry_lockId] at hg; cases hg
    · have old : lockId f = some i → Ident s' t i := fun h => (ih (by rw [hst]; simp) h hi).step hr hs
      generalize s'.data.sd = d at hS
      cases hS
      case laRet K c => cases K <;> simp only [laNext] at ha <;> split at ha <;> rcases ha with ha | ha <;> cases ha <;> cases hg
      case laEnd K c => cases K <;> simp only [laNext] at ha <;> rcases ha with ha | ha <;> cases ha <;> cases hg
      case mlIn m =>
        rcases ha with ha | ha <;> cases ha
        cases hg
        exact (Ident.of_id hr hi).step hr hs
      case swAfterN w i k h => rcases ha with ha | ha <;> cases ha; cases w <;> first | (cases hg; done) | exact old hg
      case swAfterL w i k lk h hf => rcases ha with ha | ha <;> cases ha; cases w <;> first | (cases hg; done) | exact old hg
      all_goals
        rcases ha with ha | ha <;> first
        | (cases ha; done)
        | (cases ha; cases hg; done)
        | (cases ha; exact old hg)
        | (cases ha; rename_i w _ _; cases w <;> first | (cases hg; done) | exact old hg)
        | (cases ha; rename_i w; cases w <;> first | (cases hg; done) | exact old hg)
        | (cases ha; rename_i w _ _ _; cases w <;> first | (cases hg; done) | exact old hg)
    · cases f <;> first
        | (cases hf; done)
        | (have hf := Option.some.inj hf; subst hf; cases hg; done)
        | skip
      simp only [sThrow, Option.map_eq_some_iff] at hf
      obtain ⟨x, -, rfl⟩ := hf
      cases hg

/-! ## The invariant -/

/-- Threads between `test_and_set` and the write of `owner_` in lock/try_lock, and registered threads in unlock that have passed the test:
    the id under which they own the mutex. -/
def win (m own : Nat) : SFrame α φ → Option Nat
  | .mlOwn n i => if n = m then some i else none
  | .mtOwn n => if n = m then some own else none
  | .muOwn n i => if n = m ∧ i ≠ 0 then some i else none
  | .muFlag n i => if n = m ∧ i ≠ 0 then some i else none
  | _ => none

theorem win_leaf {m own i : Nat} {f : SFrame α φ} (h : win m own f = some i) : leafF f := by
  cases f <;> first | trivial | (cases h; done)

structure MInv (s : SSt α φ δ) (m : Nat) : Prop where
  gd : good m s.data.sd.slog
  fl : s.data.sd.flag m = (cur m s.data.sd.slog).isSome
  ow : s.data.sd.owner m ≠ 0 → cur m s.data.sd.slog = some (s.data.sd.owner m)
  wn : ∀ t f rest i, s.stk t = .client f :: rest → win m (s.getId t) f = some i → cur m s.data.sd.slog = some i ∧
    (s.data.sd.owner m = 0 ∨ f = .muOwn m i ∧ s.data.sd.owner m = i)
  ex : ∀ t u f g rest rest' i j, s.stk t = .client f :: rest → s.stk u = .client g :: rest' → win m (s.getId t) f = some i →
    win m (s.getId u) g = some j → t = u
  id : ∀ t f n i rest, s.stk t = .client f :: rest → (f = .muOwn n i ∨ f = .muFlag n i) → s.getId t = i
  st : ∀ i, cur m s.data.sd.slog = some i → s.data.sd.owner m = i ∨ ∃ t f rest, s.stk t = .client f :: rest ∧
    (f = .mlOwn m i ∨ f = .mtOwn m ∧ s.getId t = i ∨ ∃ j, f = .muFlag m j)

/-- Frames inside the critical windows of `m`. -/
def mfr (m : Nat) : SFrame α φ → Prop
  | .mlOwn n _ => n = m
  | .mtOwn n => n = m
  | .muOwn n _ => n = m
  | .muFlag n _ => n = m
  | _ => False

theorem mfr_leaf {m : Nat} {f : SFrame α φ} (h : mfr m f) : leafF f := by
  cases f <;> first | trivial | exact False.elim h

theorem win_mfr {m own i : Nat} {f : SFrame α φ} (h : win m own f = some i) : mfr m f := by
  cases f <;> simp only [win] at h <;> first | contradiction | skip
  all_goals
    split at h
    · rename_i hn; first | exact hn | exact hn.1
    · contradiction

/-- The windows of threads that satisfy `Q` are the same in both states. -/
structure Same (s s' : SSt α φ δ) (m : Nat) (Q : Nat → Prop) : Prop where
  fr : ∀ u g r, Q u → s'.stk u = .client g :: r → mfr m g → s.stk u = .client g :: r ∧ s'.getId u = s.getId u
  bk : ∀ u g r, Q u → s.stk u = .client g :: r → mfr m g → s'.stk u = .client g :: r ∧ s'.getId u = s.getId u

/-- What one step does to mutex `m`. -/
inductive MEff (s s' : SSt α φ δ) (m : Nat) : Prop
  | quiet (hf : s'.data.sd.flag m = s.data.sd.flag m) (ho : s'.data.sd.owner m = s.data.sd.owner m)
      (hc : cur m s'.data.sd.slog = cur m s.data.sd.slog) (hg : good m s.data.sd.slog → good m s'.data.sd.slog) (h : Same s s' m fun _ => True)
  | got (t i : Nat) (g : SFrame α φ) (r : List (Fr α φ)) (h0 : s.data.sd.flag m = false) (hf : s'.data.sd.flag m = true)
      (ho : s'.data.sd.owner m = s.data.sd.owner m) (hl : s'.data.sd.slog = .acq t m i :: s.data.sd.slog) (hst : s'.stk t = .client g :: r)
      (hg : g = .mlOwn m i ∨ g = .mtOwn m ∧ s'.getId t = i) (h : Same s s' m (· ≠ t))
  | own (t i : Nat) (f : SFrame α φ) (r : List (Fr α φ)) (hst : s.stk t = .client f :: r) (hg : f = .mlOwn m i ∨ f = .mtOwn m ∧ s.getId t = i)
      (hf : s'.data.sd.flag m = s.data.sd.flag m) (ho : s'.data.sd.owner m = i) (hl : s'.data.sd.slog = s.data.sd.slog) (hst' : s'.stk t = r)
      (hr : ∀ g r', r = .client g :: r' → ¬ mfr m g) (h : Same s s' m (· ≠ t))
  | enter (t : Nat) (r : List (Fr α φ)) (ho : s.data.sd.owner m = s.getId t) (hd : s'.data.sd = s.data.sd) (hst : s.stk t = .client (.muIn m) :: r)
      (hst' : s'.stk t = .client (.muOwn m (s.getId t)) :: r) (hi : s'.getId t = s.getId t) (h : Same s s' m (· ≠ t))
  | clear (t i : Nat) (r : List (Fr α φ)) (hst : s.stk t = .client (.muOwn m i) :: r) (hst' : s'.stk t = .client (.muFlag m i) :: r)
      (hf : s'.data.sd.flag m = s.data.sd.flag m) (ho : s'.data.sd.owner m = 0) (hl : s'.data.sd.slog = s.data.sd.slog)
      (h : Same s s' m (· ≠ t))
  | rel (t i : Nat) (r : List (Fr α φ)) (hst : s.stk t = .client (.muFlag m i) :: r) (hst' : s'.stk t = .client (.naIn (.mtx m)) :: r)
      (hf : s'.data.sd.flag m = false) (ho : s'.data.sd.owner m = s.data.sd.owner m) (hl : s'.data.sd.slog = .rel t m i :: s.data.sd.slog)
      (h : Same s s' m (· ≠ t))

theorem Same.other (hr : SR A ad i0 s) {l : Lbl χ} (hs : step (client A) s l = some s') {m : Nat} {Q : Nat → Prop}
    (hQ : ∀ u, Q u → (∃ ch, l = .th u ch) → (∀ g r, s'.stk u = .client g :: r → ¬ mfr m g) ∧ (∀ g r, s.stk u = .client g :: r → ¬ mfr m g)) :
    Same s s' m Q where
  fr u g r hu hst hg := by
    rcases leaf_origin hr hs hst (mfr_leaf hg) with ⟨hl, h⟩ | ⟨ch, f, rfl, h, he, hS⟩
    · exact ⟨h, getId_still hr hs (by rw [h]; simp) hl⟩
    · exact absurd hg ((hQ u hu ⟨ch, rfl⟩).1 g r hst)
  bk u g r hu hst hg := by
    by_cases hl : ∃ ch, l = .th u ch
    · exact absurd hg ((hQ u hu hl).2 g r hst)
    · push Not at hl
      exact ⟨(still hr (by rw [hst]; simp) hs hl).1.trans hst, getId_still hr hs (by rw [hst]; simp) hl⟩

theorem meff (hr : SR A ad i0 s) {l : Lbl χ} (hs : step (client A) s l = some s') (m : Nat) : MEff s s' m := by
  by_cases hown : ∃ t ch f r, l = .th t ch ∧ s.stk t = .client f :: r ∧ (mfr m f ∨ f = .muIn m ∨ f = .mtIn m ∨ ∃ i, f = .mlTry m i)
  · obtain ⟨t, ch, f, r, rfl, hst, hf⟩ := hown
    have hexc : (s.thr t).exc = none := by
      refine nt_exc hr hst ?_
      rcases hf with hf | rfl | rfl | ⟨i, rfl⟩
      · cases f <;> first | exact hf.elim | trivial
      all_goals trivial
    have happ : ∀ g, f ≠ .app g := by
      rintro g rfl
      rcases hf with hf | hf | hf | ⟨i, hf⟩ <;> cases hf
    obtain ⟨a, hS, hact⟩ := own_ss hst hs hexc happ
    have hid := getId_own hst hs hexc
    have hoth : Same s s' m (· ≠ t) := Same.other hr hs fun u hu ⟨c, hc⟩ => by cases hc; exact absurd rfl hu
    have hr0 : ∀ g r', r = .client g :: r' → ¬ mfr m g := by
      intro g r' hr' hg
      have := (stk_ok hr).chain t
      rw [hst, hr'] at this
      exact absurd this.1 (leaf_adj (mfr_leaf hg) _)
    generalize hd : s'.data.sd = d at hS
    have quiet : d = s.data.sd → (∀ g r, s.stk t = .client g :: r → ¬ mfr m g) → (∀ g r, s'.stk t = .client g :: r → ¬ mfr m g) → MEff s s' m := by
      intro hdd h1 h2
      refine .quiet (by rw [hd, hdd]) (by rw [hd, hdd]) (by rw [hd, hdd]) (by rw [hd, hdd]; exact id) (Same.other hr hs fun u _ ⟨c, hc⟩ => ?_)
      cases hc
      exact ⟨h2, h1⟩
    have hnm : ∀ {f'}, f = f' → ¬ mfr m f' → ∀ g r, s.stk t = .client g :: r → ¬ mfr m g := by
      rintro f' rfl h g r h1; rw [hst] at h1; cases h1; exact h
    rcases hf with hf | rfl | rfl | ⟨i, rfl⟩
    · cases f <;> first | exact hf.elim | skip
      all_goals
        obtain rfl := hf
        cases hS
        simp only [ActTo] at hact
      · rename_i i
        exact .own t i _ r hst (.inl rfl) (by rw [hd]) (by rw [hd]; simp) (by rw [hd]) hact.1 hr0 hoth
      · exact .own t (s.getId t) _ r hst (.inr ⟨rfl, rfl⟩) (by rw [hd]) (by rw [hd]; simp [St.view]) (by rw [hd]) hact.1 hr0 hoth
      · rename_i i
        exact .clear t i r hst hact.1 (by rw [hd]) (by rw [hd]; simp) (by rw [hd]) hoth
      · rename_i i
        exact .rel t i r hst hact.1 (by rw [hd]; simp) (by rw [hd]) (by rw [hd]; rfl) hoth
    · cases hS <;> simp only [ActTo] at hact
      · rename_i h
        exact .enter t r h hd hst hact.1 hid hoth
      · exact quiet rfl (hnm rfl (by simp [mfr])) fun g r' h => by rw [hact.1] at h; exact hr0 g r' h
    · cases hS <;> simp only [ActTo] at hact
      · exact quiet rfl (hnm rfl (by simp [mfr])) fun g r' h => by rw [hact.1] at h; exact hr0 g r' h
      · rename_i h
        exact .got t (s.getId t) _ r h (by rw [hd]; simp) (by rw [hd]) (by rw [hd]; rfl) hact.1 (.inr ⟨rfl, hid⟩) hoth
    · cases hS <;> simp only [ActTo] at hact
      · exact quiet rfl (hnm rfl (by simp [mfr])) fun g r' h => by rw [hact.1] at h; cases h; exact id
      · rename_i h
        exact .got t i _ r h (by rw [hd]; simp) (by rw [hd]) (by rw [hd]; rfl) hact.1 (.inl rfl) hoth
  · have hsame : Same s s' m fun _ => True := by
      refine Same.other hr hs fun u _ ⟨ch, hc⟩ => ⟨fun g r hst hg => ?_, fun g r hst hg => hown ⟨u, ch, g, r, hc, hst, .inl hg⟩⟩
      subst hc
      rcases leaf_origin hr hs hst (mfr_leaf hg) with ⟨hl, -⟩ | ⟨ch', f, hc, h, he, hS⟩
      · exact hl ch rfl
      · apply hown
        refine ⟨u, ch, f, r, rfl, h, ?_⟩
        generalize s'.data.sd = d at hS
        generalize hx : (Act.goto g : Act (STask α) (SFrame α φ)) = a at hS
        cases hS
        case laRet K c => cases K <;> simp only [laNext] at hx <;> split at hx <;> cases hx <;> exact hg.elim
        case laEnd K c => cases K <;> simp only [laNext] at hx <;> cases hx <;> exact hg.elim
        all_goals first
          | (cases hx; done)
          | (cases hx; exact hg.elim)
          | (cases hx; obtain rfl := hg; exact .inr (.inl rfl))
          | (cases hx; obtain rfl := hg; exact .inr (.inr (.inl rfl)))
          | (cases hx; obtain rfl := hg; exact .inr (.inr (.inr ⟨_, rfl⟩)))
          | (cases hx; obtain rfl := hg; exact .inl rfl)
    rcases step_sd hs with hd | ⟨t, ch, f, r, a, rfl, he, hst, hS⟩
    · exact .quiet (by rw [hd]) (by rw [hd]) (by rw [hd]) (by rw [hd]; exact id) hsame
    · have hno : ¬ (mfr m f ∨ f = .muIn m ∨ f = .mtIn m ∨ ∃ i, f = .mlTry m i) := fun h => hown ⟨t, ch, f, r, rfl, hst, h⟩
      have key : s'.data.sd.flag m = s.data.sd.flag m ∧ s'.data.sd.owner m = s.data.sd.owner m ∧ (s'.data.sd.slog = s.data.sd.slog ∨
          ∃ e, s'.data.sd.slog = e :: s.data.sd.slog ∧ (∀ t i, e ≠ .acq t m i) ∧ (∀ t i, e ≠ .rel t m i)) := by
        generalize s'.data.sd = d at hS
        cases hS
        case mlGot n i h =>
          have hn : m ≠ n := by rintro rfl; exact hno (.inr (.inr (.inr ⟨_, rfl⟩)))
          exact ⟨set_ne _ _ hn, rfl, .inr ⟨_, rfl, by rintro t i h; cases h; exact hn rfl, by simp⟩⟩
        case mtGot n h =>
          have hn : m ≠ n := by rintro rfl; exact hno (.inr (.inr (.inl rfl)))
          exact ⟨set_ne _ _ hn, rfl, .inr ⟨_, rfl, by rintro t i h; cases h; exact hn rfl, by simp⟩⟩
        case mlOwn n i =>
          have hn : m ≠ n := by rintro rfl; exact hno (.inl rfl)
          exact ⟨rfl, set_ne _ _ hn, .inl rfl⟩
        case mtOwn n =>
          have hn : m ≠ n := by rintro rfl; exact hno (.inl rfl)
          exact ⟨rfl, set_ne _ _ hn, .inl rfl⟩
        case muOwn n i =>
          have hn : m ≠ n := by rintro rfl; exact hno (.inl rfl)
          exact ⟨rfl, set_ne _ _ hn, .inl rfl⟩
        case muFlag n i =>
          have hn : m ≠ n := by rintro rfl; exact hno (.inl rfl)
          exact ⟨set_ne _ _ hn, rfl, .inr ⟨_, rfl, by simp, by rintro t i h; cases h; exact hn rfl⟩⟩
        all_goals first
          | exact ⟨rfl, rfl, .inl rfl⟩
          | exact ⟨rfl, rfl, .inr ⟨_, rfl, by simp, by simp⟩⟩
          | skip
        case swIn w =>
          simp only [SData.addWaiter]
          split
          · exact ⟨rfl, rfl, .inl rfl⟩
          · exact ⟨rfl, rfl, .inr ⟨_, rfl, by simp, by simp⟩⟩
        case wfAdd w _ _ =>
          simp only [SData.addWaiter]
          split
          · exact ⟨rfl, rfl, .inl rfl⟩
          · exact ⟨rfl, rfl, .inr ⟨_, rfl, by simp, by simp⟩⟩
        case swBefore w _ _ => cases w <;> exact ⟨rfl, rfl, .inl rfl⟩
        case wfBefore w _ _ _ _ => cases w <;> exact ⟨rfl, rfl, .inl rfl⟩
      obtain ⟨h1, h2, h3⟩ := key
      rcases h3 with h3 | ⟨e, h3, h4, h5⟩
      · exact .quiet h1 h2 (by rw [h3]) (by rw [h3]; exact id) hsame
      · have := cur_other (l := s.data.sd.slog) h4 h5
        exact .quiet h1 h2 (by rw [h3, this.1]) (by rw [h3]; exact this.2.2) hsame

theorem win_got {m t i : Nat} {g : SFrame α φ} (h : g = .mlOwn m i ∨ g = .mtOwn m ∧ t = i) : win m t g = some i := by
  rcases h with rfl | ⟨rfl, rfl⟩ <;> simp [win]

theorem MInv.step (hr : SR A ad i0 s) {l : Lbl χ} (hs : Core.step (client A) s l = some s') {m : Nat} (q : MInv s m)
    (hn : NoAnon s'.data.sd.slog m) : MInv s' m := by
  have hid : ∀ t f n i rest, s'.stk t = .client f :: rest → (f = .muOwn n i ∨ f = .muFlag n i) → s'.getId t = i := by
    intro t f n i rest hst hf
    have hleaf : leafF f := by rcases hf with rfl | rfl <;> trivial
    rcases leaf_origin hr hs hst hleaf with ⟨hl, h⟩ | ⟨ch, f', rfl, h, he, hS⟩
    · rw [getId_still hr hs (by rw [h]; simp) hl]; exact q.id t f n i rest h hf
    · rw [getId_own h hs he]
      have old : ∀ {n}, f' = .muOwn n i → s.getId t = i := fun {n} hx => q.id t f' n i rest h (.inl hx)
      generalize s'.data.sd = d at hS
      generalize hx : (Act.goto _ : Act (STask α) (SFrame α φ)) = a at hS
      cases hS
      case laRet K c => cases K <;> simp only [laNext] at hx <;> split at hx <;> cases hx <;> exact hleaf.elim
      case laEnd K c => cases K <;> simp only [laNext] at hx <;> cases hx <;> exact hleaf.elim
      case muIn => cases hx; rcases hf with hf | hf <;> cases hf; rfl
      case muOwn => cases hx; rcases hf with hf | hf <;> cases hf; exact old rfl
      all_goals first
        | (cases hx; done)
        | (cases hx; rcases hf with hf | hf <;> cases hf; done)
  cases meff hr hs m with
  | quiet hf ho hc hg h =>
    refine ⟨hg q.gd, by rw [hf, hc]; exact q.fl, by rw [ho, hc]; exact q.ow, ?_, ?_, hid, ?_⟩
    · intro t f rest i hst hw
      obtain ⟨h1, h2⟩ := h.fr t f rest trivial hst (win_mfr hw)
      rw [hc, ho]; exact q.wn t f rest i h1 (h2 ▸ hw)
    · intro t u f g rest rest' i j hst hst' hw hw'
      obtain ⟨h1, h2⟩ := h.fr t f rest trivial hst (win_mfr hw)
      obtain ⟨h1', h2'⟩ := h.fr u g rest' trivial hst' (win_mfr hw')
      exact q.ex t u f g rest rest' i j h1 h1' (h2 ▸ hw) (h2' ▸ hw')
    · intro i hi
      rw [ho]
      rcases q.st i (hc ▸ hi) with h1 | ⟨t, f, rest, h1, h2⟩
      · exact .inl h1
      · have hm : mfr m f := by rcases h2 with rfl | ⟨rfl, -⟩ | ⟨j, rfl⟩ <;> rfl
        obtain ⟨h3, h4⟩ := h.bk t f rest trivial h1 hm
        exact .inr ⟨t, f, rest, h3, by rw [h4]; exact h2⟩
  | got t i g r h0 hf ho hl hst hg h =>
    have hcn : cur m s.data.sd.slog = none := by
      have := q.fl; rw [h0] at this
      exact Option.isNone_iff_eq_none.1 (by rw [← Option.not_isSome, ← this]; rfl)
    have hc : cur m s'.data.sd.slog = some i := by rw [hl]; simp [cur]
    have how : s.data.sd.owner m = 0 := by
      by_contra hne; rw [q.ow hne] at hcn; cases hcn
    have hoth : ∀ u f rest j, u ≠ t → s'.stk u = .client f :: rest → win m (s'.getId u) f = some j → False := by
      intro u f rest j hu h1 h2
      obtain ⟨h3, h4⟩ := h.fr u f rest hu h1 (win_mfr h2)
      have := (q.wn u f rest j h3 (h4 ▸ h2)).1
      rw [hcn] at this; cases this
    refine ⟨by rw [hl]; exact ⟨fun _ => hcn, q.gd⟩, by rw [hf, hc]; rfl, fun hne => absurd (ho.trans how) hne, ?_, ?_, hid, ?_⟩
    · intro u f rest j h1 h2
      by_cases hu : u = t
      · subst hu
        rw [hst] at h1; cases h1
        rw [win_got hg] at h2; cases h2
        exact ⟨hc, .inl (ho.trans how)⟩
      · exact (hoth u f rest j hu h1 h2).elim
    · intro u v f g rest rest' j k h1 h2 h3 h4
      have hu : u = t := by by_contra hu; exact hoth u f rest j hu h1 h3
      have hv : v = t := by by_contra hv; exact hoth v g rest' k hv h2 h4
      exact hu.trans hv.symm
    · intro j hj
      rw [hc] at hj; cases hj
      refine .inr ⟨t, g, r, hst, ?_⟩
      rcases hg with hg | hg
      · exact .inl hg
      · exact .inr (.inl hg)
  | own t i f r hst hg hf ho hl hst' hr' h =>
    have hw := win_got hg
    have hc := (q.wn t f r i hst hw).1
    have hoth : ∀ u f rest j, s'.stk u = .client f :: rest → win m (s'.getId u) f = some j → False := by
      intro u g rest j h1 h2
      by_cases hu : u = t
      · subst hu; rw [hst'] at h1; exact hr' _ _ h1 (win_mfr h2)
      · obtain ⟨h3, h4⟩ := h.fr u g rest hu h1 (win_mfr h2)
        exact hu (q.ex u t g f rest r j i h3 hst (h4 ▸ h2) hw)
    refine ⟨by rw [hl]; exact q.gd, by rw [hf, hl]; exact q.fl, fun _ => by rw [hl, ho]; exact hc, ?_, ?_, hid, ?_⟩
    · intro u f rest j h1 h2; exact (hoth u f rest j h1 h2).elim
    · intro u v f g rest rest' j k h1 h2 h3 h4; exact (hoth u f rest j h1 h3).elim
    · intro j hj; rw [hl, hc] at hj; cases hj; exact .inl ho
  | enter t r ho hd hst hst' hi h =>
    have hoth : s.getId t ≠ 0 → ∀ u f rest j, u ≠ t → s'.stk u = .client f :: rest → win m (s'.getId u) f = some j → False := by
      intro hne u f rest j hu h1 h2
      obtain ⟨h3, h4⟩ := h.fr u f rest hu h1 (win_mfr h2)
      rcases (q.wn u f rest j h3 (h4 ▸ h2)).2 with h5 | ⟨rfl, h5⟩
      · rw [ho] at h5; exact hne h5
      · have h6 := q.id u _ m j rest h3 (.inl rfl)
        have hj : s.getId u = s.getId t := by rw [h6, ← h5, ho]
        exact hu (Ident.uniq hr (hj ▸ Ident.of_id hr (by rw [hj]; exact hne)) (Ident.of_id hr hne))
    refine ⟨by rw [hd]; exact q.gd, by rw [hd]; exact q.fl, by rw [hd]; exact q.ow, ?_, ?_, hid, ?_⟩
    · intro u f rest j h1 h2
      rw [hd]
      by_cases hu : u = t
      · subst hu
        rw [hst'] at h1; cases h1
        simp only [win] at h2
        split at h2
        · rename_i hne; cases h2
          exact ⟨by rw [q.ow (by rw [ho]; exact hne.2), ho], .inr ⟨rfl, ho⟩⟩
        · cases h2
      · obtain ⟨h3, h4⟩ := h.fr u f rest hu h1 (win_mfr h2)
        exact q.wn u f rest j h3 (h4 ▸ h2)
    · intro u v f g rest rest' j k h1 h2 h3 h4
      have key : ∀ u f rest j v g rest' k, s'.stk u = .client f :: rest → s'.stk v = .client g :: rest' → win m (s'.getId u) f = some j →
          win m (s'.getId v) g = some k → u = t → u = v := by
        intro u f rest j v g rest' k h1 h2 h3 h4 hu
        subst hu
        rw [hst'] at h1; cases h1
        simp only [win] at h3
        split at h3
        · rename_i hne
          by_contra hv
          exact hoth hne.2 v g rest' k (fun h => hv h.symm) h2 h4
        · cases h3
      by_cases hu : u = t
      · exact key u f rest j v g rest' k h1 h2 h3 h4 hu
      by_cases hv : v = t
      · exact (key v g rest' k u f rest j h2 h1 h4 h3 hv).symm
      obtain ⟨h5, h6⟩ := h.fr u f rest hu h1 (win_mfr h3)
      obtain ⟨h5', h6'⟩ := h.fr v g rest' hv h2 (win_mfr h4)
      exact q.ex u v f g rest rest' j k h5 h5' (h6 ▸ h3) (h6' ▸ h4)
    · intro i hi'
      rw [hd] at hi' ⊢
      rcases q.st i hi' with h1 | ⟨u, f, rest, h1, h2⟩
      · exact .inl h1
      · have hm : mfr m f := by rcases h2 with rfl | ⟨rfl, -⟩ | ⟨j, rfl⟩ <;> rfl
        have hu : u ≠ t := by rintro rfl; rw [hst] at h1; cases h1; exact hm
        obtain ⟨h3, h4⟩ := h.bk u f rest hu h1 hm
        exact .inr ⟨u, f, rest, h3, by rw [h4]; exact h2⟩
  | clear t i r hst hst' hf ho hl h =>
    have hwt : ∀ u f rest j, s'.stk u = .client f :: rest → win m (s'.getId u) f = some j → ∃ f', s.stk u = .client f' :: rest ∧
        win m (s.getId u) f' = some j ∧ (f = f' ∨ u = t) := by
      intro u f rest j h1 h2
      by_cases hu : u = t
      · subst hu
        rw [hst'] at h1; cases h1
        exact ⟨_, hst, h2, .inr rfl⟩
      · obtain ⟨h3, h4⟩ := h.fr u f rest hu h1 (win_mfr h2)
        exact ⟨f, h3, h4 ▸ h2, .inl rfl⟩
    refine ⟨by rw [hl]; exact q.gd, by rw [hf, hl]; exact q.fl, fun hne => absurd ho hne, ?_, ?_, hid, ?_⟩
    · intro u f rest j h1 h2
      obtain ⟨f', h3, h4, -⟩ := hwt u f rest j h1 h2
      exact ⟨by rw [hl]; exact (q.wn u f' rest j h3 h4).1, .inl ho⟩
    · intro u v f g rest rest' j k h1 h2 h3 h4
      obtain ⟨f', h5, h6, -⟩ := hwt u f rest j h1 h3
      obtain ⟨g', h5', h6', -⟩ := hwt v g rest' k h2 h4
      exact q.ex u v f' g' rest rest' j k h5 h5' h6 h6'
    · intro j hj
      exact .inr ⟨t, _, r, hst', .inr (.inr ⟨i, rfl⟩)⟩
  | rel t i r hst hst' hf ho hl h =>
    have hi : i ≠ 0 := by rintro rfl; exact hn t (by rw [hl]; simp)
    have hw : win m (s.getId t) (.muFlag m i : SFrame α φ) = some i := by simp [win, hi]
    obtain ⟨hc, how⟩ := q.wn t _ r i hst hw
    have how : s.data.sd.owner m = 0 := by rcases how with h | ⟨h, -⟩; exact h; cases h
    have hc' : cur m s'.data.sd.slog = none := by rw [hl]; simp [cur]
    have hoth : ∀ u f rest j, s'.stk u = .client f :: rest → win m (s'.getId u) f = some j → False := by
      intro u g rest j h1 h2
      by_cases hu : u = t
      · subst hu; rw [hst'] at h1; cases h1; cases h2
      · obtain ⟨h3, h4⟩ := h.fr u g rest hu h1 (win_mfr h2)
        exact hu (q.ex u t g _ rest r j i h3 hst (h4 ▸ h2) hw)
    refine ⟨by rw [hl]; exact ⟨fun _ => hc, q.gd⟩, by rw [hf, hc']; rfl, fun hne => absurd (ho.trans how) hne, ?_, ?_, hid, ?_⟩
    · intro u f rest j h1 h2; exact (hoth u f rest j h1 h2).elim
    · intro u v f g rest rest' j k h1 h2 h3 h4; exact (hoth u f rest j h1 h3).elim
    · intro j hj; rw [hc'] at hj; cases hj

theorem MInv.reach (hr : SR A ad i0 s) {m : Nat} : NoAnon s.data.sd.slog m → MInv s m := by
  refine Reach.induct (fun s => NoAnon s.data.sd.slog m → MInv s m) ?_ ?_ hr
  · intro _
    have hst : ∀ t f rest, (Core.init { sd := {}, ad := ad } (.app i0) : SSt α φ δ).stk t = .client f :: rest → f = .app i0 := by
      intro t f rest h
      by_cases ht : t = 0
      · subst ht; simp [Core.init, St.stk] at h; exact h.1.symm
      · simp [Core.init, St.stk, upd_ne _ _ ht] at h
    refine ⟨trivial, rfl, fun h => absurd rfl h, ?_, ?_, ?_, ?_⟩
    · intro t f rest i h1 h2; rw [hst t f rest h1] at h2; cases h2
    · intro t u f g rest rest' i j h1 h2 h3; rw [hst t f rest h1] at h3; cases h3
    · intro t f n i rest h hf; rw [hst t f rest h] at hf; rcases hf with hf | hf <;> cases hf
    · intro i hi; cases hi
  · intro s l s' hr ih hs hn
    exact MInv.step hr hs (ih fun t ht => hn t (slog_mono hs ht)) hn

/-! ## C26 -/

/-- Mutual exclusion: a mutex is owned under one id at a time. The full claim has no hypothesis; it is false if an unregistered thread
    unlocks the mutex, see `C26_anonymous`. -/
theorem C26_exclusive_partial (hr : SR A ad i0 s) {m i j : Nat} (hn : NoAnon s.data.sd.slog m) (hi : Owned s.data.sd.slog m i)
    (hj : Owned s.data.sd.slog m j) : i = j := by
  have q := MInv.reach hr hn
  have h1 := hi.cur q.gd
  rw [hj.cur q.gd] at h1
  exact (Option.some.inj h1).symm

/-- Phases of `lock` on mutex `m` called under id `i`. -/
def LockPh (m i own : Nat) : SFrame α φ → Prop
  | .mlIn n => n = m ∧ own = i
  | .mlTry n j => n = m ∧ j = i
  | .mlChk n j => n = m ∧ j = i
  | .mlOwn n j => n = m ∧ j = i
  | .swIn w => w = .mtx m i
  | .swLoop w _ _ => w = .mtx m i
  | .swChk w _ _ => w = .mtx m i
  | .swBefore w _ _ => w = .mtx m i
  | .swAfter w _ _ => w = .mtx m i
  | .swRem w _ _ _ => w = .mtx m i
  | _ => False

theorem LockPh.own {m i own own' : Nat} {v : View} {d d' : SData α} {rv : Val} {f g : SFrame α φ} {run destroy : α → φ}
    {a : Act (STask α) (SFrame α φ)} (hp : LockPh m i own f) (hS : SS run destroy v d rv f d' a) (hv : v.id = own)
    (hc : a.cont = some g) : LockPh m i own' g := by
  cases hS <;> first | exact False.elim hp | (cases hc; done) | skip
  case mlIn => cases hc; exact ⟨hp.1, hv.trans hp.2⟩
  case mlBusy => cases hc; exact hp
  case mlGot => cases hc; exact hp
  case mlWait => cases hc; obtain ⟨rfl, rfl⟩ := hp; rfl
  case swRemM => cases hc; cases hp; exact ⟨rfl, rfl⟩
  case swRemF => cases hp
  all_goals (cases hc; exact hp)

theorem LockPh.handler {m i own : Nat} {f g : SFrame α φ} {e : Exn} {h : φ → Exn → Option φ} (hp : LockPh m i own f)
    (hf : sThrow h f e = some g) : False := by
  cases f <;> first | exact hp | (cases hf; done)

theorem no_above (hr : SR A ad i0 s) {t : Nat} {pre rest : List (Fr α φ)} {f : SFrame α φ} (hpre : s.stk t = pre ++ .client f :: rest)
    (hf : ∀ x, ¬ Adj (.client f) x) : pre = [] := by
  have hch := (stk_ok hr).chain t
  rcases List.eq_nil_or_concat pre with rfl | ⟨pre, x, rfl⟩
  · rfl
  · rw [hpre] at hch
    simp only [List.concat_eq_append, List.append_assoc, List.cons_append, List.nil_append] at hch
    exact absurd (chain_mid hch) (hf _)

theorem LockPh.env {m i t : Nat} {rest : List (Fr α φ)} (hr : SR A ad i0 s) {f : SFrame α φ} {l : Lbl χ} (hp : LockPh m i (s.getId t) f)
    (hs : step (client A) s l = some s') (h1 : ∃ pre, s.stk t = pre ++ .client f :: rest)
    (h3 : s.stk t = .client f :: rest → ∀ ch, l ≠ .th t ch) : LockPh m i (s'.getId t) f := by
  cases f <;> first | exact hp | skip
  obtain ⟨pre, hpre⟩ := h1
  obtain rfl := no_above hr hpre (fun _ => id)
  simp only [List.nil_append] at hpre
  exact ⟨hp.1, (getId_still hr hs (by rw [hpre]; simp) (h3 hpre)).trans hp.2⟩

theorem LockPh.ind (hr : SR A ad i0 s0) {t n m : Nat} {rest : List (Fr α φ)} (h0 : s0.stk t = .client (.mlIn m) :: rest)
    (h : Frag (client A) t rest s0 n s) : ∃ pre f, s.stk t = pre ++ .client f :: rest ∧ (s.term = true ∨ LockPh m (s0.getId t) (s.getId t) f) := by
  refine SFrag.ind (fun f s => LockPh m (s0.getId t) (s.getId t) f) hr h0 ⟨rfl, rfl⟩ (fun _ _ h => h) ?_ ?_ ?_ h
  · intro s1 s2 f g d' a ch hr1 hst hexc hp hS hc hd hs hck hst2
    exact hp.own hS rfl hc
  · intro s1 s2 f g e hr1 hst hexc hp hnt hf hd
    exact (hp.handler hf).elim
  · intro s1 s2 f l hr1 hp hs h1 h2 h3
    exact hp.env hr1 hs h1 h3

/-- A call of lock that returns normally owns the mutex under the id the thread had when it called. -/
theorem C26_lock (hr : SR A ad i0 s0) {t n m : Nat} {rest : List (Fr α φ)} {l : Lbl χ} (h0 : s0.stk t = .client (.mlIn m) :: rest)
    (h : Frag (client A) t rest s0 n s) (hs : step (client A) s l = some s') (hend : s'.stk t = rest) (hexc : (s'.thr t).exc = none)
    (hn : NoAnon s'.data.sd.slog m) : Owned s'.data.sd.slog m (s0.getId t) := by
  have hr1 := h.reach hr
  obtain ⟨pre, f, hst, hp⟩ := LockPh.ind hr h0 h
  have hp := hp.resolve_left (by rw [step_live hs]; simp)
  obtain ⟨rfl, hl, ch, rfl⟩ := SFrag.last hr1 hst hs hend (by rintro g rfl; exact hp)
  simp only [List.nil_append] at hst
  have q := MInv.reach (hr1) (m := m) fun u hu => hn u (slog_mono hs hu)
  cases hl with
  | ret v d' he hS hd he' hrv =>
    generalize hx : (.ret v : Act (STask α) (SFrame α φ)) = a at hS
    cases hS <;> first | exact False.elim hp | (cases hx; done) | skip
    case mlOwn k j =>
      obtain ⟨rfl, rfl⟩ := hp
      rw [hd]
      exact Owned.of_cur (q.wn t _ rest _ hst (by simp [win])).1
    case swRemC => cases hp
    case swRemV => cases hp
  | throw e d' he hS hd he' => rw [he'] at hexc; cases hexc
  | unwind e he hnt hf hd he' => rw [he'] at hexc; cases hexc

/-- A call of try_lock that returns true owns the mutex under the id of the thread. -/
theorem C26_try_lock (hr : SR A ad i0 s0) {t n m : Nat} {rest : List (Fr α φ)} {l : Lbl χ} (h0 : s0.stk t = .client (.mtIn m) :: rest)
    (h : Frag (client A) t rest s0 n s) (hs : step (client A) s l = some s') (hend : s'.stk t = rest) (hrv : (s'.thr t).rv = .bool true)
    (hn : NoAnon s'.data.sd.slog m) : Owned s'.data.sd.slog m (s0.getId t) ∧ (s'.thr t).exc = none := by
  have hr1 := h.reach hr
  have ind : ∃ pre f, s.stk t = pre ++ .client f :: rest ∧ (s.term = true ∨
      ((f = .mtIn m ∨ f = .mtOwn m) ∧ s.getId t = s0.getId t)) := by
    refine SFrag.ind (fun f s => (f = .mtIn m ∨ f = .mtOwn m) ∧ s.getId t = s0.getId t) hr h0 ⟨.inl rfl, rfl⟩
      (fun _ _ h => by rcases h.1 with h | h <;> cases h) ?_ ?_ ?_ h
    · rintro s1 s2 f g d' a ch hr1 hst hexc ⟨hp, hi⟩ hS hc hd hs hck hst2
      refine ⟨?_, (getId_own hst hs hexc).trans hi⟩
      rcases hp with rfl | rfl <;> cases hS <;> cases hc
      exact .inr rfl
    · rintro s1 s2 f g e hr1 hst hexc ⟨hp, hi⟩ hnt hf hd
      rcases hp with rfl | rfl <;> cases hf
    · rintro s1 s2 f l hr1 ⟨hp, hi⟩ hs ⟨pre, hpre⟩ h2 h3
      refine ⟨hp, ?_⟩
      have hpn : pre = [] := by
        have hch := (stk_ok hr1).chain t
        rcases List.eq_nil_or_concat pre with rfl | ⟨pre, x, rfl⟩
        · rfl
        · rw [hpre] at hch
          simp only [List.concat_eq_append, List.append_assoc, List.cons_append, List.nil_append] at hch
          rcases hp with rfl | rfl <;> exact (chain_mid hch).elim
      subst hpn
      simp only [List.nil_append] at hpre
      exact (getId_still hr1 hs (by rw [hpre]; simp) (h3 hpre)).trans hi
  obtain ⟨pre, f, hst, hp⟩ := ind
  obtain ⟨hp, hi⟩ := hp.resolve_left (by rw [step_live hs]; simp)
  obtain ⟨rfl, hl, ch, rfl⟩ := SFrag.last hr1 hst hs hend (by rintro g rfl; rcases hp with h | h <;> cases h)
  simp only [List.nil_append] at hst
  have q := MInv.reach (hr1) (m := m) fun u hu => hn u (slog_mono hs hu)
  cases hl with
  | ret v d' he hS hd he' hrv' =>
    refine ⟨?_, he'⟩
    rw [hrv'] at hrv; subst hrv
    rcases hp with rfl | rfl
    · cases hS
    · cases hS
      rw [hd, ← hi]
      exact Owned.of_cur (q.wn t _ rest _ hst (by simp [win])).1
  | throw e d' he hS hd he' => rcases hp with rfl | rfl <;> cases hS
  | unwind e he hnt hf hd he' => exact absurd (nt_exc hr1 hst (by rcases hp with rfl | rfl <;> trivial)) (by rw [he]; simp)

/-- Ownership ends only inside a call of unlock by a thread with that id. -/
theorem C26_until_unlock (hr : SR A ad i0 s) {l : Lbl χ} (hs : step (client A) s l = some s') {m i : Nat} (hn : NoAnon s'.data.sd.slog m)
    (hi : Owned s.data.sd.slog m i) : Owned s'.data.sd.slog m i ∨
      ∃ t ch rest, l = .th t ch ∧ s.stk t = .client (.muFlag m i) :: rest ∧ s.getId t = i := by
  have hn0 : NoAnon s.data.sd.slog m := fun u hu => hn u (slog_mono hs hu)
  have q := MInv.reach hr hn0
  have q' := MInv.reach (hr.step hs) hn
  have hc := hi.cur q.gd
  by_cases hk : ∃ t ch rest, l = .th t ch ∧ s.stk t = .client (.muFlag m i) :: rest ∧ s.getId t = i
  · exact .inr hk
  · left
    apply Owned.of_cur
    cases meff hr hs m with
    | quiet hf ho hc' hg h => rw [hc', hc]
    | got t j g r h0 hf ho hl hst hg h => have := q.fl; rw [h0, hc] at this; cases this
    | own t j f r hst hg hf ho hl hst' hr' h => rw [hl, hc]
    | enter t r ho hd hst hst' hi h => rw [hd, hc]
    | clear t j r hst hst' hf ho hl h => rw [hl, hc]
    | rel t j r hst hst' hf ho hl h =>
      exfalso
      have hj : j ≠ 0 := by rintro rfl; exact hn t (by rw [hl]; simp)
      have hw := (q.wn t _ r j hst (by simp [win, hj])).1
      rw [hc] at hw; cases hw
      rcases step_sd hs with hd | ⟨u, ch, f, r', a, rfl, he, hst2, hS⟩
      · rw [hd] at hl; exact absurd (congrArg List.length hl) (by simp)
      · by_cases hu : u = t
        · subst hu
          exact hk ⟨u, ch, r, rfl, hst, q.id u _ m i r hst (.inr rfl)⟩
        · have := (still hr (by rw [hst]; simp) hs (by intro c hc; cases hc; exact hu rfl)).1
          rw [hst, hst'] at this; cases this

/-! ## C27 -/

/-- No unregistered thread has released the mutex or is about to. -/
structure Clean (s : SSt α φ δ) (m : Nat) : Prop where
  log : NoAnon s.data.sd.slog m
  now : ∀ t rest, s.stk t ≠ .client (.muFlag m 0) :: rest

theorem Clean.back (hr : SR A ad i0 s) {l : Lbl χ} (hs : step (client A) s l = some s') {m : Nat} (h : Clean s' m) : Clean s m := by
  refine ⟨fun u hu => h.log u (slog_mono hs hu), fun t rest hst => ?_⟩
  by_cases hl : ∃ ch, l = .th t ch
  · obtain ⟨ch, rfl⟩ := hl
    obtain ⟨a, hS, hact⟩ := own_ss hst hs (nt_exc hr hst trivial) (by simp)
    have h1 := h.log t
    generalize s'.data.sd = d at hS h1
    cases hS
    exact h1 (by simp [St.view])
  · push Not at hl
    exact h.now t rest ((still hr (by rw [hst]; simp) hs hl).1.trans hst)

/-- The recorded owner is the owner, as far as the owner can see. -/
theorem owner_exact (hr : SR A ad i0 s) {m t : Nat} (hc : Clean s m) (ho : Owned s.data.sd.slog m (s.getId t)) (h0 : s.getId t ≠ 0)
    (hm : ∀ f rest, s.stk t = .client f :: rest → ¬ mfr m f) : s.data.sd.flag m = true ∧ s.data.sd.owner m = s.getId t := by
  have q := MInv.reach hr hc.log
  have hcur := ho.cur q.gd
  refine ⟨by rw [q.fl, hcur]; rfl, ?_⟩
  rcases q.st _ hcur with h | ⟨u, f, rest, hst, h⟩
  · exact h
  · exfalso
    have hmf : mfr m f := by rcases h with rfl | ⟨rfl, -⟩ | ⟨j, rfl⟩ <;> rfl
    have hu : Ident s u (s.getId t) → False := fun hi => by
      have := hi.uniq hr (Ident.of_id hr h0)
      subst this
      exact hm f rest hst hmf
    rcases h with rfl | ⟨rfl, h⟩ | ⟨j, rfl⟩
    · exact hu (lock_ident hr (f := .mlOwn m (s.getId t)) (by rw [hst]; simp) rfl h0)
    · exact hu (h ▸ Ident.of_id hr (by rw [h]; exact h0))
    · have hj : j ≠ 0 := by rintro rfl; exact hc.now u rest hst
      have hw := (q.wn u _ rest j hst (by simp [win, hj])).1
      rw [hcur] at hw; cases hw
      have h2 := q.id u _ m _ rest hst (.inr rfl)
      exact hu (h2 ▸ Ident.of_id hr (by rw [h2]; exact h0))

theorem Owned.keep (hr : SR A ad i0 s) {l : Lbl χ} (hs : step (client A) s l = some s') {m t : Nat} (hn : NoAnon s'.data.sd.slog m)
    (h0 : s.getId t ≠ 0) (hi : Owned s.data.sd.slog m (s.getId t)) (hm : ∀ f rest, s.stk t = .client f :: rest → ¬ mfr m f) :
    Owned s'.data.sd.slog m (s.getId t) := by
  refine (C26_until_unlock hr hs hn hi).resolve_right ?_
  rintro ⟨u, ch, rest, -, hst, hu⟩
  have := (hu ▸ Ident.of_id hr (by rw [hu]; exact h0) : Ident s u (s.getId t)).uniq hr (Ident.of_id hr h0)
  subst this
  exact hm _ _ hst rfl

/-- Frames of `lock` called by the owner. -/
def Early3 (m i : Nat) (f : SFrame α φ) : Prop := f = .mlIn m ∨ f = .mlTry m i ∨ f = .mlChk m i

theorem Early3.not_mfr {m i n : Nat} {f : SFrame α φ} (h : Early3 m i f) : ¬ mfr n f := by
  rcases h with rfl | rfl | rfl <;> exact id

theorem Early3.no_above {m i : Nat} {f : SFrame α φ} (h : Early3 m i f) (x : Fr α φ) : ¬ Adj (.client f) x := by
  rcases h with rfl | rfl | rfl <;> exact id

/-- lock() by a registered thread that owns the mutex never waits, changes nothing and throws resource_deadlock_would_occur. The full claim
    has no hypothesis `Clean`; it is false without (`C26_anonymous`: both threads own the mutex, only one is recorded as the owner). -/
theorem C27_lock_owner_partial (hr : SR A ad i0 s0) {t n m : Nat} {rest : List (Fr α φ)} (h0 : s0.stk t = .client (.mlIn m) :: rest)
    (hreg : s0.getId t ≠ 0) (hown : Owned s0.data.sd.slog m (s0.getId t)) (h : Frag (client A) t rest s0 n s) (hc : Clean s m)
    {l : Lbl χ} (hs : step (client A) s l = some s') :
    (∃ f, s.stk t = .client f :: rest ∧ Early3 m (s0.getId t) f) ∧
    (∀ ch, l = .th t ch → s'.data.sd = s.data.sd) ∧ (s'.stk t = rest → (s'.thr t).exc = some .deadlock) := by
  have hr1 := h.reach hr
  have ind : ∃ pre f, s.stk t = pre ++ .client f :: rest ∧ (s.term = true ∨ (LockPh m (s0.getId t) (s.getId t) f ∧ (Clean s m →
      Early3 m (s0.getId t) f ∧ s.getId t = s0.getId t ∧ Owned s.data.sd.slog m (s0.getId t)))) := by
    refine SFrag.ind (fun f s => LockPh m (s0.getId t) (s.getId t) f ∧ (Clean s m → Early3 m (s0.getId t) f ∧ s.getId t = s0.getId t ∧
      Owned s.data.sd.slog m (s0.getId t))) hr h0 ⟨⟨rfl, rfl⟩, fun _ => ⟨.inl rfl, rfl, hown⟩⟩
      (fun g _ h => h.1) ?_ ?_ ?_ h
    · rintro s1 s2 f g d' a ch hr1 hst hexc ⟨hl, hp⟩ hS hcn hd hs hck hst2
      refine ⟨hl.own hS rfl hcn, fun hc => ?_⟩
      have hc1 := hc.back hr1 hs
      obtain ⟨h3, hid, ho⟩ := hp hc1
      have hid2 := (getId_own hst hs hexc).trans hid
      have hm : ∀ f rest, s1.stk t = .client f :: rest → ¬ mfr m f := fun f' rest' h => by
        rw [hst] at h; cases h; exact h3.not_mfr
      have hreg1 : s1.getId t ≠ 0 := by rw [hid]; exact hreg
      rw [← hid] at ho
      refine ⟨?_, hid2, hid ▸ ho.keep hr1 hs hc.log hreg1 hm⟩
      obtain ⟨e1, e2⟩ := owner_exact hr1 hc1 ho hreg1 hm
      rcases h3 with rfl | rfl | rfl <;> cases hS <;> cases hcn
      · exact .inr (.inl (by rw [← hid]; rfl))
      · exact .inr (.inr rfl)
      · rename_i h; rw [e1] at h; cases h
      · rename_i h; exact absurd (e2.trans hid) h
    · rintro s1 s2 f g e hr1 hst hexc ⟨hl, hp⟩ hnt hf hd
      exact (hl.handler hf).elim
    · rintro s1 s2 f l hr1 ⟨hl, hp⟩ hs h1 h2 h3
      refine ⟨hl.env hr1 hs h1 h3, fun hc => ?_⟩
      have hc1 := hc.back hr1 hs
      obtain ⟨hf, hid, ho⟩ := hp hc1
      obtain ⟨pre, hpre⟩ := h1
      obtain rfl := no_above hr1 hpre hf.no_above
      simp only [List.nil_append] at hpre
      refine ⟨hf, (getId_still hr1 hs (by rw [hpre]; simp) (h3 hpre)).trans hid, ?_⟩
      rw [← hid] at ho ⊢
      exact ho.keep hr1 hs hc.log (by rw [hid]; exact hreg) fun f' rest' h => by rw [hpre] at h; cases h; exact hf.not_mfr
  obtain ⟨pre, f, hst, hp⟩ := ind
  obtain ⟨hl, hp⟩ := hp.resolve_left (by rw [step_live hs]; simp)
  obtain ⟨hf, hid, ho⟩ := hp hc
  obtain rfl := no_above hr1 hst hf.no_above
  simp only [List.nil_append] at hst
  have hexc : (s.thr t).exc = none := nt_exc hr1 hst (by rcases hf with rfl | rfl | rfl <;> trivial)
  rw [← hid] at ho hreg
  obtain ⟨e1, e2⟩ := owner_exact hr1 hc ho hreg fun f' rest' h => by rw [hst] at h; cases h; exact hf.not_mfr
  have own : ∀ ch, l = .th t ch → s'.data.sd = s.data.sd ∧ (s'.stk t = rest → (s'.thr t).exc = some .deadlock) := by
    rintro ch rfl
    obtain ⟨a, hS, hact⟩ := own_ss hst hs hexc (by rintro g rfl; rcases hf with h | h | h <;> cases h)
    generalize s'.data.sd = d at hS
    have nope : ∀ {x}, s'.stk t = .client x :: rest → s'.stk t = rest → (s'.thr t).exc = some .deadlock := by
      intro x h1 h2; rw [h1] at h2; exact absurd (congrArg List.length h2) (by simp)
    rcases hf with rfl | rfl | rfl <;> cases hS <;> simp only [ActTo] at hact
    · exact ⟨rfl, nope hact.1⟩
    · exact ⟨rfl, nope hact.1⟩
    · rename_i h; rw [e1] at h; cases h
    · exact ⟨rfl, fun _ => hact.2⟩
    · rename_i h; exact absurd (e2.trans hid) h
  refine ⟨⟨f, hst, hf⟩, fun ch hl => (own ch hl).1, fun hend => ?_⟩
  by_cases hl : ∃ ch, l = .th t ch
  · obtain ⟨ch, hl⟩ := hl
    exact (own ch hl).2 hend
  · push Not at hl
    have := (still hr1 (by rw [hst]; simp) hs hl).1
    rw [hend, hst] at this
    exact absurd (congrArg List.length this) (by simp)

/-- If lock() called by a registered thread throws by itself (not an exception passing through from a task run while waiting), it throws
    resource_deadlock_would_occur, and the caller owns the mutex. -/
theorem C27_lock_only_owner_partial (hr : SR A ad i0 s0) {t n m : Nat} {rest : List (Fr α φ)} (h0 : s0.stk t = .client (.mlIn m) :: rest)
    (hreg : s0.getId t ≠ 0) (h : Frag (client A) t rest s0 n s) {l : Lbl χ} (hs : step (client A) s l = some s') (hend : s'.stk t = rest)
    (hexc : (s.thr t).exc = none) {e : Exn} (hexc' : (s'.thr t).exc = some e) (hn : NoAnon s.data.sd.slog m) :
    e = .deadlock ∧ Owned s.data.sd.slog m (s0.getId t) ∧ s'.data.sd = s.data.sd := by
  have hr1 := h.reach hr
  obtain ⟨pre, f, hst, hp⟩ := LockPh.ind hr h0 h
  have hp := hp.resolve_left (by rw [step_live hs]; simp)
  obtain ⟨rfl, hl, ch, rfl⟩ := SFrag.last hr1 hst hs hend (by rintro g rfl; exact hp)
  have q := MInv.reach hr1 hn
  cases hl with
  | ret v d' he hS hd he' hrv => rw [he'] at hexc'; cases hexc'
  | throw e' d' he hS hd he' =>
    rw [he'] at hexc'; cases hexc'
    generalize hx : (.throw e : Act (STask α) (SFrame α φ)) = a at hS
    cases hS <;> first | exact False.elim hp | (cases hx; done) | skip
    case mlDead =>
      obtain ⟨rfl, rfl⟩ := hp
      rename_i k ho
      cases hx
      refine ⟨rfl, Owned.of_cur ?_, hd⟩
      rw [← ho]
      exact q.ow (by rw [ho]; exact hreg)
  | unwind e he hnt hf hd he' => rw [he] at hexc; cases hexc

/-- unlock() by a registered thread that does not own the mutex throws at once and changes nothing. -/
theorem C27_unlock_other_partial (hr : SR A ad i0 s) {t m : Nat} {rest : List (Fr α φ)} (hst : s.stk t = .client (.muIn m) :: rest)
    (hreg : s.getId t ≠ 0) (hn : NoAnon s.data.sd.slog m) (hno : ¬ Owned s.data.sd.slog m (s.getId t)) {ch : Ch χ}
    (hs : step (client A) s (.th t ch) = some s') : s'.stk t = rest ∧ (s'.thr t).exc = some .noLock ∧ s'.data.sd = s.data.sd := by
  obtain ⟨a, hS, hact⟩ := own_ss hst hs (nt_exc hr hst trivial) (by simp)
  have q := MInv.reach hr hn
  generalize s'.data.sd = d at hS
  cases hS <;> simp only [ActTo] at hact
  case muIn ho =>
    have ho : s.data.sd.owner m = s.getId t := ho
    exact absurd (Owned.of_cur (ho ▸ q.ow (by rw [ho]; exact hreg))) hno
  case muBad => exact ⟨hact.1, hact.2, rfl⟩

/-- unlock() by the owner is accepted. -/
theorem C27_unlock_owner_partial (hr : SR A ad i0 s) {t m : Nat} {rest : List (Fr α φ)} (hst : s.stk t = .client (.muIn m) :: rest)
    (hreg : s.getId t ≠ 0) (hc : Clean s m) (ho : Owned s.data.sd.slog m (s.getId t)) {ch : Ch χ}
    (hs : step (client A) s (.th t ch) = some s') : s'.stk t = .client (.muOwn m (s.getId t)) :: rest ∧ (s'.thr t).exc = none := by
  obtain ⟨a, hS, hact⟩ := own_ss hst hs (nt_exc hr hst trivial) (by simp)
  obtain ⟨-, e2⟩ := owner_exact hr hc ho hreg fun f' rest' h => by rw [hst] at h; cases h; exact id
  generalize s'.data.sd = d at hS
  cases hS <;> simp only [ActTo] at hact
  case muIn ho => exact ⟨hact.1, hact.2.1⟩
  case muBad h => exact absurd e2 h
end

/-! ## Examples -/
set_option synthInstance.maxSize 1024
set_option synthInstance.maxHeartbeats 400000

/-- Main and thread 1 (both registered) lock mutex 0; thread 2, not registered, unlocks it. -/
def demo13 : List (SAct Nat Nat) :=
  [.core .registerThis 2, .core (.spawn 1 10) 3, .core (.spawn 2 20) 4, .sync (.mLock 0) 5, .ret .unit, .ret .unit, .ret .unit, .ret .unit,
   .ret .unit, .core .registerThis 11, .sync (.mLock 0) 12, .ret .unit, .ret .unit, .ret .unit, .ret .unit, .ret .unit, .ret .unit, .ret .unit,
   .ret .unit, .sync (.mUnlock 0) 21, .ret .unit]

/-- A defect: while main is between `test_and_set` and `owner_ = id` (mutex.hpp:27-37), `owner_` is 0, so `unlock` by an unregistered
    thread (id 0) passes the test of mutex.hpp:65 and clears the flag. Thread 1 locks the mutex, main returns from lock too: two registered
    threads own the mutex. Only main is recorded as the owner. -/
theorem C26_anonymous : ∃ s, SR (tableApp demo13) () 1 s ∧ s.stk 0 = [.client (.app 5)] ∧ s.stk 1 = [.client (.app 12)] ∧
    s.getId 0 = 1 ∧ s.getId 1 = 2 ∧ Owned s.data.sd.slog 0 1 ∧ Owned s.data.sd.slog 0 2 ∧ s.data.sd.owner 0 = 1 := by
  obtain ⟨s, h, he⟩ := swit (l := demo13) (hnd := fun _ => none) (ls := go 0 11 ++ go 2 4 ++ go 1 8 ++ go 0 1)
    (g := fun s => ((s.stk 0, s.stk 1), (s.getId 0, s.getId 1), s.data.sd.slog, s.data.sd.owner 0))
    (b := (([.client (.app 5)], [.client (.app 12)]), (1, 2), [.acq 1 0 2, .rel 2 0 0, .acq 0 0 1], 1)) (by decide +kernel)
  simp only [Prod.mk.injEq] at he
  obtain ⟨⟨h1, h2⟩, ⟨h3, h4⟩, h5, h6⟩ := he
  exact ⟨s, h, h1, h2, h3, h4, by rw [h5]; exact ⟨[.acq 1 0 2, .rel 2 0 0], 0, [], rfl, by simp⟩,
    by rw [h5]; exact ⟨[], 1, _, rfl, by simp⟩, h6⟩

/-- Main (registered) locks mutex 0 and again; thread 1 (registered) unlocks it. -/
def demo14 : List (SAct Nat Nat) :=
  [.core .registerThis 2, .core (.spawn 1 10) 3, .sync (.mLock 0) 4, .sync (.mLock 0) 5, .sync (.mUnlock 0) 6, .sync (.mTry 0) 7, .ret .unit, .ret .unit,
   .ret .unit, .core .registerThis 11, .sync (.mUnlock 0) 12, .ret .unit]

/-- Main locks mutex 0: hypotheses of `C26_lock`. -/
example : ∃ s0 n s s', SR (tableApp demo14) () 1 s0 ∧ s0.stk 0 = .client (.mlIn 0) :: [.client (.app 4)] ∧
    Frag (demo demo14) 0 [.client (.app 4)] s0 n s ∧ step (demo demo14) s (.th 0 .go) = some s' ∧
    (s'.stk 0, (s'.thr 0).exc, s'.data.sd.slog) = ([.client (.app 4)], none, [.acq 0 0 1]) :=
  sfragWit (ls1 := go 0 7) (ls2 := go 0 2) (hnd := fun _ => none) (obs := fun _ _ _ s' => (s'.stk 0, (s'.thr 0).exc, s'.data.sd.slog)) (by decide +kernel)

/-- It locks it again: hypotheses of `C27_lock_owner_partial` and `C27_lock_only_owner_partial`. -/
example : ∃ s0 n s s', SR (tableApp demo14 fun _ => some 5) () 1 s0 ∧ s0.stk 0 = .client (.mlIn 0) :: [.client (.app 5)] ∧
    Frag (client (tableApp demo14 fun _ => some 5)) 0 [.client (.app 5)] s0 n s ∧ step (client (tableApp demo14 fun _ => some 5)) s (.th 0 .go) = some s' ∧
    (s'.stk 0, s0.data.sd.slog, s0.getId 0, (s'.thr 0).exc, s.stk 1) = ([.client (.app 5)], [.acq 0 0 1], 1, some .deadlock, [.client (.app 10)]) :=
  sfragWit (ls1 := go 0 11) (ls2 := go 0 2)
    (obs := fun s0 _ s s' => (s'.stk 0, s0.data.sd.slog, s0.getId 0, (s'.thr 0).exc, s.stk 1)) (by decide +kernel)

/-- Then it unlocks it: hypotheses of `C27_unlock_owner_partial`, and those of `C26_until_unlock` when it clears the flag. -/
example : ∃ s s', SR (tableApp demo14 fun _ => some 5) () 1 s ∧ step (client (tableApp demo14 fun _ => some 5)) s (.th 0 .go) = some s' ∧
    (s.stk 0, s.data.sd.slog, s'.data.sd.slog, s.getId 0, s.stk 1) =
      ([.client (.muFlag 0 1), .client (.app 6)], [.acq 0 0 1], [.rel 0 0 1, .acq 0 0 1], 1, [.client (.app 10)]) :=
  sstepWit (ls := go 0 18) (fun s s' => (s.stk 0, s.data.sd.slog, s'.data.sd.slog, s.getId 0, s.stk 1)) (by decide +kernel)

/-- ... and tries to lock it: hypotheses of `C26_try_lock`. -/
example : ∃ s0 n s s', SR (tableApp demo14 fun _ => some 5) () 1 s0 ∧ s0.stk 0 = .client (.mtIn 0) :: [.client (.app 7)] ∧
    Frag (client (tableApp demo14 fun _ => some 5)) 0 [.client (.app 7)] s0 n s ∧ step (client (tableApp demo14 fun _ => some 5)) s (.th 0 .go) = some s' ∧
    (s'.stk 0, s0.data.sd.slog.length, s'.data.sd.slog.length, (s'.thr 0).rv) = ([.client (.app 7)], 3, 4, .bool true) :=
  sfragWit (ls1 := go 0 22) (ls2 := go 0 1)
    (obs := fun s0 _ s s' => (s'.stk 0, s0.data.sd.slog.length, s'.data.sd.slog.length, (s'.thr 0).rv)) (by decide +kernel)

/-- Thread 1 unlocks a mutex that main owns: hypotheses of `C27_unlock_other_partial`. -/
example : ∃ s s', SR (tableApp demo14) () 1 s ∧ step (demo demo14) s (.th 1 .go) = some s' ∧
    (s.stk 1, s.data.sd.slog, s.getId 1, (s'.thr 1).exc) = ([.client (.muIn 0), .client (.app 12)], [.acq 0 0 1], 2, some .noLock) :=
  sstepWit (hnd := fun _ => none) (ls := go 0 10 ++ go 1 5) (fun s s' => (s.stk 1, s.data.sd.slog, s.getId 1, (s'.thr 1).exc)) (by decide +kernel)

/-- Main (not registered) locks mutex 0 while thread 1 has just set the flag. -/
def demo15 : List (SAct Nat Nat) :=
  [.core (.spawn 1 10) 2, .sync (.mLock 0) 3, .ret .unit, .ret .unit, .ret .unit, .ret .unit, .ret .unit, .ret .unit, .ret .unit, .core .registerThis 11,
   .sync (.mLock 0) 12, .ret .unit]

/-- Why `C27_lock_only_owner_partial` is about registered threads: an unregistered thread gets resource_deadlock_would_occur although it does
    not own the mutex, as `owner_` is still 0. -/
theorem C27_spurious : ∃ s s', SR (tableApp demo15) () 1 s ∧ step (demo demo15) s (.th 0 .go) = some s' ∧
    (s.stk 0, s.data.sd.slog, s.stk 1, (s.thr 0).exc, (s'.thr 0).exc) =
      ([.client (.mlChk 0 0), .client (.app 3)], [.acq 1 0 1], [.client (.mlOwn 0 1), .client (.app 12)], none, some .deadlock) :=
  sstepWit (hnd := fun _ => none) (ls := go 0 3 ++ go 1 7 ++ go 0 2)
    (fun s s' => (s.stk 0, s.data.sd.slog, s.stk 1, (s.thr 0).exc, (s'.thr 0).exc)) (by decide +kernel)
end Itc
