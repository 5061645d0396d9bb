import Verif.Pool.Ret
import Verif.Pool.Demo
import Verif.Props.PoolJobs

/-!
# C50: job_future over the lifetime of its pool

A `JF` is what class `job_future` remembers of its job: the id, the weak pointer to the sentinel of the pool object (`sen`), the address of the pool object
(`owner`).  `live n`: sentinel `n` is not expired.  `sim n` (ghost) is the pool for which sentinel `n` was made; `mix n` (ghost): the object that held the
sentinel took part in a move assignment.
-/
namespace Itc
open Core Sync Pool
section
variable {α φ δ χ : Type} {U : PApp α φ δ χ} {u0 : δ} {f0 : φ} {s s' s'' : PSt α φ δ}

/-- Sentinels. -/
structure SenI (ad : PData α δ) : Prop where
  obj : ∀ {h o n}, ad.obj h = some o → o.sen = some n → n < ad.nsen
  sim : ∀ {h o n i}, ad.obj h = some o → o.sen = some n → o.impl = some i → ad.mix n = false → ad.sim n = i

theorem senI_step {v : View} {ad ad' : PData α δ} {f : PFrame α φ} {rv : Val} {ch : Ch (PCh χ)} {a : SAct (PTask α) (PFrame α φ)}
    (h : (poolApp U).step v ad f rv ch = some (ad', a)) (q : SenI ad) :
    SenI ad' ∧ ad.nsen ≤ ad'.nsen ∧ ∀ n, n < ad.nsen → ad.live n = false → ad'.live n = false := by
  have same : ∀ {d : PData α δ}, d.obj = ad.obj → d.nsen = ad.nsen → d.sim = ad.sim → d.mix = ad.mix → d.live = ad.live →
      SenI d ∧ ad.nsen ≤ d.nsen ∧ ∀ n, n < ad.nsen → ad.live n = false → d.live n = false := by
    intro d h1 h2 h3 h4 h5
    refine ⟨⟨?_, ?_⟩, by omega, by rw [h5]; exact fun _ _ h => h⟩
    · rw [h1, h2]; exact q.obj
    · rw [h1, h3, h4]; exact q.sim
  have dead : ∀ {o : Option Nat} n, ad.live n = false → (match (generalizing := false) o with | some m => Sync.set ad.live m false | none => ad.live) n = false := by
    intro o n h
    cases o with
    | none => exact h
    | some m =>
      by_cases e : n = m
      · subst e; simp [set_same]
      · simp only; rw [set_ne _ _ e]; exact h
  cases pool_pc h with
  | usr g ch u wa hU => exact same rfl rfl rfl rfl rfl
  | ck x d' id c hP => cases hP <;> exact same rfl rfl rfl rfl rfl
  | ps f d' a hf hb hP =>
    clear h
    cases hP
    case newEnd i h =>
      refine ⟨⟨?_, ?_⟩, Nat.le_succ _, ?_⟩
      · intro h' o n h1 h2
        dsimp only at h1
        by_cases e : h' = h
        · subst e; rw [set_same] at h1; cases h1; cases h2; exact Nat.lt_succ_self _
        · rw [set_ne _ _ e] at h1; exact Nat.lt_succ_of_lt (q.obj h1 h2)
      · intro h' o n j h1 h2 h3 h4
        dsimp only at h1 ⊢
        by_cases e : h' = h
        · subst e; rw [set_same] at h1; cases h1; cases h2; cases h3; rw [set_same]
        · rw [set_ne _ _ e] at h1
          rw [set_ne _ _ (by have := q.obj h1 h2; omega)]
          exact q.sim h1 h2 h3 h4
      · intro n hn hl
        dsimp only
        rw [set_ne _ _ (by omega)]; exact hl
    case delNo h o ho hi hd =>
      subst hd
      refine ⟨⟨?_, ?_⟩, Nat.le_refl _, fun n _ hl => dead n hl⟩
      · intro h' o' n h1 h2
        dsimp only at h1
        by_cases e : h' = h
        · subst e; rw [set_same] at h1; cases h1; cases h2
        · rw [set_ne _ _ e] at h1; exact q.obj h1 h2
      · intro h' o' n j h1 h2 h3 h4
        dsimp only at h1
        by_cases e : h' = h
        · subst e; rw [set_same] at h1; cases h1; cases h2
        · rw [set_ne _ _ e] at h1; exact q.sim h1 h2 h3 h4
    case delIn h o i hq ho hi hd =>
      subst hd
      refine ⟨⟨?_, ?_⟩, Nat.le_refl _, fun n _ hl => dead n hl⟩
      · intro h' o' n h1 h2
        dsimp only at h1
        by_cases e : h' = h
        · subst e; rw [set_same] at h1; cases h1; cases h2
        · rw [set_ne _ _ e] at h1; exact q.obj h1 h2
      · intro h' o' n j h1 h2 h3 h4
        dsimp only at h1
        by_cases e : h' = h
        · subst e; rw [set_same] at h1; cases h1; cases h2
        · rw [set_ne _ _ e] at h1; exact q.sim h1 h2 h3 h4
    case diEnd h =>
      refine ⟨⟨?_, ?_⟩, Nat.le_refl _, fun n _ hl => hl⟩
      · intro h' o' n h1 h2
        dsimp only at h1
        by_cases e : h' = h
        · subst e; rw [set_same] at h1; cases h1
        · rw [set_ne _ _ e] at h1; exact q.obj h1 h2
      · intro h' o' n j h1 h2 h3 h4
        dsimp only at h1
        by_cases e : h' = h
        · subst e; rw [set_same] at h1; cases h1
        · rw [set_ne _ _ e] at h1; exact q.sim h1 h2 h3 h4
    case maEnd h h' o o' ho ho' hd =>
      subst hd
      refine ⟨⟨?_, ?_⟩, Nat.le_refl _, fun n _ hl => dead n hl⟩
      · intro x ox n h1 h2
        dsimp only at h1
        by_cases e : x = h'
        · subst e; rw [set_same] at h1; cases h1; cases h2
        · rw [set_ne _ _ e] at h1
          by_cases e2 : x = h
          · subst e2; rw [set_same] at h1; cases h1; exact q.obj ho' h2
          · rw [set_ne _ _ e2] at h1; exact q.obj h1 h2
      · intro x ox n j h1 h2 h3 h4
        dsimp only at h1 h4
        simp only [mixed, Bool.or_eq_false_iff, decide_eq_false_iff_not] at h4
        by_cases e : x = h'
        · subst e; rw [set_same] at h1; cases h1; cases h2
        · rw [set_ne _ _ e] at h1
          by_cases e2 : x = h
          · subst e2; rw [set_same] at h1; cases h1; exact (h4.2 h2).elim
          · rw [set_ne _ _ e2] at h1; exact q.sim h1 h2 h3 h4.1.1
    case mvIn h h' o hn ho =>
      refine ⟨⟨?_, ?_⟩, Nat.le_refl _, fun n _ hl => hl⟩
      · intro x ox n h1 h2
        dsimp only at h1
        by_cases e : x = h'
        · subst e; rw [set_same] at h1; cases h1; cases h2
        · rw [set_ne _ _ e] at h1
          by_cases e2 : x = h
          · subst e2; rw [set_same] at h1; cases h1; exact q.obj ho h2
          · rw [set_ne _ _ e2] at h1; exact q.obj h1 h2
      · intro x ox n j h1 h2 h3 h4
        dsimp only at h1
        by_cases e : x = h'
        · subst e; rw [set_same] at h1; cases h1; cases h2
        · rw [set_ne _ _ e] at h1
          by_cases e2 : x = h
          · subst e2; rw [set_same] at h1; cases h1; exact q.sim ho h2 h3 h4
          · rw [set_ne _ _ e2] at h1; exact q.sim h1 h2 h3 h4
    case maNo h h' o o' hne ho ho' hi hd =>
      subst hd
      refine ⟨⟨?_, ?_⟩, Nat.le_refl _, fun n _ hl => hl⟩
      · intro x ox n h1 h2
        dsimp only at h1
        by_cases e : x = h'
        · subst e; rw [set_same] at h1; cases h1; exact q.obj ho' h2
        · rw [set_ne _ _ e] at h1
          by_cases e2 : x = h
          · subst e2; rw [set_same] at h1; cases h1; exact q.obj ho h2
          · rw [set_ne _ _ e2] at h1; exact q.obj h1 h2
      · intro x ox n j h1 h2 h3 h4
        dsimp only at h1 h4
        simp only [mixed, Bool.or_eq_false_iff, decide_eq_false_iff_not] at h4
        by_cases e : x = h'
        · subst e; rw [set_same] at h1; cases h1; cases h3
        · rw [set_ne _ _ e] at h1
          by_cases e2 : x = h
          · subst e2; rw [set_same] at h1; cases h1; exact (h4.1.2 h2).elim
          · rw [set_ne _ _ e2] at h1; exact q.sim h1 h2 h3 h4.1.1
    case maIn h h' o o' i hq hne ho ho' hi hd =>
      subst hd
      refine ⟨⟨?_, ?_⟩, Nat.le_refl _, fun n _ hl => hl⟩
      · intro x ox n h1 h2
        dsimp only at h1
        by_cases e : x = h'
        · subst e; rw [set_same] at h1; cases h1; exact q.obj ho' h2
        · rw [set_ne _ _ e] at h1
          by_cases e2 : x = h
          · subst e2; rw [set_same] at h1; cases h1; exact q.obj ho h2
          · rw [set_ne _ _ e2] at h1; exact q.obj h1 h2
      · intro x ox n j h1 h2 h3 h4
        dsimp only at h1 h4
        simp only [mixed, Bool.or_eq_false_iff, decide_eq_false_iff_not] at h4
        by_cases e : x = h'
        · subst e; rw [set_same] at h1; cases h1; cases h3
        · rw [set_ne _ _ e] at h1
          by_cases e2 : x = h
          · subst e2; rw [set_same] at h1; cases h1; exact (h4.1.2 h2).elim
          · rw [set_ne _ _ e2] at h1; exact q.sim h1 h2 h3 h4.1.1
    case wtEnd i k dn => cases dn <;> exact same rfl rfl rfl rfl rfl
    case wtGo i k dn p l => cases dn <;> exact same rfl rfl rfl rfl rfl
    all_goals first
      | exact same rfl rfl rfl rfl rfl
      | (subst_vars; exact same rfl rfl rfl rfl rfl)

theorem senI (hr : PR U u0 f0 s) : SenI s.data.ad := by
  refine data_ind (fun ad => SenI ad) ⟨(by intro h o n h1; cases h1), (by intro h o n i h1; cases h1)⟩ ?_ hr
  intro s t ch f rest ad' a hr q he hst hA
  exact (senI_step hA q).1

/-- A sentinel that is expired stays expired. -/
theorem C50_stays (hr : PR U u0 f0 s) {ls : List (Lbl (PCh χ))} (hs : run (client (poolApp U)) s ls = some s') {n : Nat} (hn : n < s.data.ad.nsen)
    (hl : s.data.ad.live n = false) : s'.data.ad.live n = false := by
  have key : ∀ {s s' : PSt α φ δ} {l : Lbl (PCh χ)}, PR U u0 f0 s → Core.step (client (poolApp U)) s l = some s' → n < s.data.ad.nsen → s.data.ad.live n = false →
      n < s'.data.ad.nsen ∧ s'.data.ad.live n = false := by
    intro s s' l hr hs h1 h2
    cases l with
    | tick n => rw [step_tick _ s s' n hs]; exact ⟨h1, h2⟩
    | th t ch =>
      cases mv hr hs with
      | app g rest a he hst hd hact hA =>
        obtain ⟨ch', hA⟩ := hA
        obtain ⟨-, h3, h4⟩ := senI_step hA (senI hr)
        exact ⟨by omega, h4 n h1 h2⟩
      | sync f rest a he hst hS hact had => rw [had]; exact ⟨h1, h2⟩
      | hand e f f' rest he hst hn hf hst' he' hd had => rw [had]; exact ⟨h1, h2⟩
      | drop e f rest he hst hn hf hst' he' hd had => rw [had]; exact ⟨h1, h2⟩
      | core f rest pre hst hpre hst' hd had => rw [had]; exact ⟨h1, h2⟩
      | still hst' he' hd had => rw [had]; exact ⟨h1, h2⟩
  induction ls generalizing s with
  | nil => cases hs; exact hl
  | cons l ls ih =>
    simp only [run] at hs
    split at hs
    · cases hs
    · rename_i s1 h1
      obtain ⟨h2, h3⟩ := key hr h1 hn hl
      exact ih (hr.step h1) hs h2 h3

/-- **C50 (destroyed pools).** After the destructor of a pool object has begun, the sentinel of the object is expired for ever … -/
theorem C50_destroyed (hr : PR U u0 f0 s) {t h n : Nat} {o : PObj} {rest : List (Fr (PTask α) (PFrame α φ))} {ch : Ch (PCh χ)}
    (htop : s.stk t = .client (.app (.delIn h)) :: rest) (hexc : (s.thr t).exc = none) (ho : s.data.ad.obj h = some o) (hn : o.sen = some n)
    (hs : Core.step (client (poolApp U)) s (.th t ch) = some s') (hlive : s'.term = false)
    {ls : List (Lbl (PCh χ))} (hls : run (client (poolApp U)) s' ls = some s'') : s''.data.ad.live n = false := by
  have hlt := (senI hr).obj ho hn
  obtain ⟨a, ch', hA, hd, hact⟩ := pool_at hr htop hexc hs
  have h1 := (senI_step hA (senI hr)).2.1
  refine C50_stays (hr.step hs) hls (by omega) ?_
  generalize s'.data.ad = ad' at hA
  cases pool_pc hA with
  | ps f d' a' hf hb hP =>
    cases hP
    case bad => rw [hact.2.1] at hlive; cases hlive
    case delNo o' hi ho' hd => subst hd; rw [ho] at ho'; cases ho'; simp only [hn]; rw [set_same]
    case delIn o' i hq hi ho' hd => subst hd; rw [ho] at ho'; cases ho'; simp only [hn]; rw [set_same]

/-- … and then stop and change_priority of a job_future of that pool do nothing: they return at once, no data is changed (the event is ghost). -/
theorem C50_nothing (hr : PR U u0 f0 s) {t : Nat} {f : JF} {g : Grp} {rest : List (Fr (PTask α) (PFrame α φ))} {ch : Ch (PCh χ)}
    (htop : s.stk t = .client (.app (.jsIn f)) :: rest ∨ s.stk t = .client (.app (.jcIn f g)) :: rest) (hexc : (s.thr t).exc = none)
    (hdead : ∀ n, f.sen = some n → s.data.ad.live n = false) (hs : Core.step (client (poolApp U)) s (.th t ch) = some s') :
    s'.stk t = rest ∧ (s'.thr t).exc = none ∧ s'.data.sd = s.data.sd ∧ s'.data.ad = s.data.ad.ev (.expired t f.id) := by
  rcases htop with htop | htop
  all_goals
    obtain ⟨a, ch', hA, hd, hact⟩ := pool_at hr htop hexc hs
    cases ch' with
    | go =>
      simp only [poolApp, pstep, Option.some.injEq] at hA
      cases hsen : f.sen with
      | none =>
        simp only [hsen, Prod.mk.injEq] at hA
        obtain ⟨h1, rfl⟩ := hA
        exact ⟨hact.1, hact.2.1, hd, h1.symm⟩
      | some n =>
        simp only [hsen, hdead n hsen, Bool.false_eq_true, if_false, Prod.mk.injEq] at hA
        obtain ⟨h1, rfl⟩ := hA
        exact ⟨hact.1, hact.2.1, hd, h1.symm⟩
    | timeout => cases hA
    | spurious => cases hA
    | user c => cases hA

/-- **C50 (live pools, part).** While the sentinel is alive, stop of a job_future becomes stop of the pool object at the remembered address … -/
theorem C50_stop_partial (hr : PR U u0 f0 s) {t n h : Nat} {f : JF} {rest : List (Fr (PTask α) (PFrame α φ))} {ch : Ch (PCh χ)}
    (htop : s.stk t = .client (.app (.jsIn f)) :: rest) (hexc : (s.thr t).exc = none) (hn : f.sen = some n) (hl : s.data.ad.live n = true) (ho : f.owner = some h)
    (hs : Core.step (client (poolApp U)) s (.th t ch) = some s') :
    s'.stk t = .client (.app (.stIn h f.id)) :: rest ∧ (s'.thr t).exc = none ∧ s'.data = s.data := by
  obtain ⟨a, ch', hA, hd, hact⟩ := pool_at hr htop hexc hs
  cases ch' with
  | go =>
    simp only [poolApp, pstep, Option.some.injEq, hn, hl, ho, if_true, Prod.mk.injEq] at hA
    obtain ⟨h1, rfl⟩ := hA
    refine ⟨hact.1, hact.2.1, ?_⟩
    have : s'.data = ⟨s'.data.sd, s'.data.ad⟩ := rfl
    rw [this, hd, ← h1]
  | timeout => cases hA
  | spurious => cases hA
  | user c => cases hA

/-- … and change_priority becomes change_priority of that object. -/
theorem C50_change_partial (hr : PR U u0 f0 s) {t n h : Nat} {f : JF} {g : Grp} {rest : List (Fr (PTask α) (PFrame α φ))} {ch : Ch (PCh χ)}
    (htop : s.stk t = .client (.app (.jcIn f g)) :: rest) (hexc : (s.thr t).exc = none) (hn : f.sen = some n) (hl : s.data.ad.live n = true)
    (ho : f.owner = some h) (hs : Core.step (client (poolApp U)) s (.th t ch) = some s') :
    s'.stk t = .client (.app (.cpIn h f.id g)) :: rest ∧ (s'.thr t).exc = none ∧ s'.data = s.data := by
  obtain ⟨a, ch', hA, hd, hact⟩ := pool_at hr htop hexc hs
  cases ch' with
  | go =>
    simp only [poolApp, pstep, Option.some.injEq, hn, hl, ho, if_true, Prod.mk.injEq] at hA
    obtain ⟨h1, rfl⟩ := hA
    refine ⟨hact.1, hact.2.1, ?_⟩
    have : s'.data = ⟨s'.data.sd, s'.data.ad⟩ := rfl
    rw [this, hd, ← h1]
  | timeout => cases hA
  | spurious => cases hA
  | user c => cases hA

/-- If the object is still where it was - it still holds the sentinel -, and never took part in a move assignment, these act on the pool for which the sentinel
    was made: they lock its mutex and then execute `C46_stop`, `C45_change` for this pool and the id of the job.
    Missing: pool objects that were moved. The claim does not hold for them (`C50_moved`, `C50_other`). -/
theorem C50_pool_partial (hr : PR U u0 f0 s) {t n h i id : Nat} {g : Grp} {o : PObj} {rest : List (Fr (PTask α) (PFrame α φ))} {ch : Ch (PCh χ)}
    {b : Bool} (htop : s.stk t = .client (.app (if b then .stIn h id else .cpIn h id g)) :: rest) (hexc : (s.thr t).exc = none) (ho : s.data.ad.obj h = some o)
    (hn : o.sen = some n) (hi : o.impl = some i) (hm : s.data.ad.mix n = false) (hs : Core.step (client (poolApp U)) s (.th t ch) = some s') :
    i = s.data.ad.sim n ∧ s'.data = s.data ∧
      s'.stk t = .client (.lkIn (gd i)) :: .client (.app (if b then .clIn i id .stop else .cpBody i id g)) :: rest := by
  have h0 := (senI hr).sim ho hn hi hm
  refine ⟨h0.symm, ?_⟩
  obtain ⟨a, ch', hA, hd, hact⟩ := pool_at hr htop hexc hs
  have key : s'.data.ad = s.data.ad → s'.data = s.data := fun h1 => by
    have : s'.data = ⟨s'.data.sd, s'.data.ad⟩ := rfl
    rw [this, hd, h1]
  have hde : s.data.ad.deref h = some i := by simp [PData.deref, ho, hi]
  cases b <;> simp only [Bool.false_eq_true, if_false, if_true] at hA htop ⊢
  all_goals
    cases ch' with
    | go =>
      simp only [poolApp, pstep, Option.some.injEq, enter, hde, Prod.mk.injEq] at hA
      obtain ⟨h1, rfl⟩ := hA
      exact ⟨key h1.symm, hact.1⟩
    | timeout => cases hA
    | spurious => cases hA
    | user c => cases hA

/-- The job_future that schedule returns: the sentinel that the object holds, made for pool `i`. -/
theorem C50_future (hr : PR U u0 f0 s) {t i h u id n : Nat} {rest : List (Fr (PTask α) (PFrame α φ))} {ch : Ch (PCh χ)}
    (htop : s.stk t = .client (.app (.nwFin i (.sched h u id))) :: rest) (hexc : (s.thr t).exc = none) (ho : s.data.ad.obj h = some ⟨some i, some n⟩)
    (hm : s.data.ad.mix n = false) (hs : Core.step (client (poolApp U)) s (.th t ch) = some s') :
    (s'.thr t).rv = .ids [u, id, n + 1] ∧ s'.data.ad.sim n = i := by
  have h0 := (senI hr).sim ho rfl rfl hm
  obtain ⟨a, ch', hA, hd, hact⟩ := pool_at hr htop hexc hs
  cases ch' with
  | go =>
    simp only [poolApp, pstep, Option.some.injEq, ho, Prod.mk.injEq] at hA
    obtain ⟨h1, rfl⟩ := hA
    exact ⟨hact.2.2, by rw [← h1]; exact h0⟩
  | timeout => cases hA
  | spurious => cases hA
  | user c => cases hA

end

/-! ## Examples -/

/-- Main makes a pool, schedules a job, destroys the pool, and then stops the job by its job_future. -/
def demoDead : List (PAct Nat Nat) :=
  [.core .registerThis 2, .pool (.new 0 []) 3, .pool (.schedule 0 ⟨0, 5⟩ true 20) 4, .pool (.del 0) 5, .pool (.jfStop ⟨1, some 0, some 0⟩) 6]

/-- The same without destruction. -/
def demoLive : List (PAct Nat Nat) :=
  [.core .registerThis 2, .pool (.new 0 []) 3, .pool (.schedule 0 ⟨0, 5⟩ true 20) 4, .pool (.jfStop ⟨1, some 0, some 0⟩) 5]

/-- The pool object is moved (to address 1) before. -/
def demoMoved : List (PAct Nat Nat) :=
  [.core .registerThis 2, .pool (.new 0 []) 3, .pool (.schedule 0 ⟨0, 5⟩ true 20) 4, .pool (.move 1 0) 5, .pool (.jfStop ⟨1, some 0, some 0⟩) 6]

/-- The pool object is moved, and at its old address a second pool is made, with a job of its own. -/
def demoOther : List (PAct Nat Nat) :=
  [.core .registerThis 2, .pool (.new 0 []) 3, .pool (.schedule 0 ⟨0, 5⟩ true 20) 4, .pool (.move 1 0) 5, .pool (.del 0) 6, .pool (.new 0 []) 7,
   .pool (.schedule 0 ⟨0, 5⟩ true 20) 8, .pool (.jfStop ⟨1, some 0, some 0⟩) 9]

set_option synthInstance.maxSize 1024 in
set_option synthInstance.maxHeartbeats 400000 in
/-- The hypotheses of `C50_destroyed` and `C50_nothing` are met. -/
example : (∃ (s s' : DPSt) (rest : _), PR (tableP demoDead) () 1 s ∧ s.stk 0 = .client (.app (.delIn 0)) :: rest ∧ (s.thr 0).exc = none ∧
      s.data.ad.obj 0 = some ⟨some 0, some 0⟩ ∧ step (client (poolApp (tableP demoDead))) s (.th 0 .go) = some s' ∧ s'.term = false) ∧
    ∃ (s s' : DPSt) (rest : _), PR (tableP demoDead) () 1 s ∧ s.stk 0 = .client (.app (.jsIn ⟨1, some 0, some 0⟩)) :: rest ∧ (s.thr 0).exc = none ∧
      s.data.ad.live 0 = false ∧ step (client (poolApp (tableP demoDead))) s (.th 0 .go) = some s' := by
  constructor
  · obtain ⟨s, s', h1, h2, h3⟩ := pwit2 (l := demoDead) (ls := pgo 0 19) (ls' := [.th 0 .go]) (fun s s' =>
      (s.stk 0, (s.thr 0).exc, s.data.ad.obj 0, s'.term)) (b := ([.client (.app (.delIn 0)), .client (.app (.usr 5))], none, some ⟨some 0, some 0⟩, false)) (by decide +kernel)
    simp only [Prod.mk.injEq] at h3
    obtain ⟨a1, a2, a3, a4⟩ := h3
    refine ⟨s, s', _, h1, a1, a2, a3, ?_, a4⟩
    simp only [run] at h2
    split at h2
    · cases h2
    · rename_i h; rw [h, ← h2]
  · obtain ⟨s, s', h1, h2, h3⟩ := pwit2 (l := demoDead) (ls := pgo 0 66) (ls' := [.th 0 .go]) (fun s s' =>
      (s.stk 0, (s.thr 0).exc, s.data.ad.live 0)) (b := ([.client (.app (.jsIn ⟨1, some 0, some 0⟩)), .client (.app (.usr 6))], none, false)) (by decide +kernel)
    simp only [Prod.mk.injEq] at h3
    obtain ⟨a1, a2, a3⟩ := h3
    refine ⟨s, s', _, h1, a1, a2, a3, ?_⟩
    simp only [run] at h2
    split at h2
    · cases h2
    · rename_i h; rw [h, ← h2]

set_option synthInstance.maxSize 1024 in
set_option synthInstance.maxHeartbeats 400000 in
/-- The hypotheses of `C50_stop_partial`, `C50_pool_partial` and `C50_future` are met. -/
example : (∃ (s s' : DPSt) (rest : _), PR (tableP demoLive) () 1 s ∧ s.stk 0 = .client (.app (.jsIn ⟨1, some 0, some 0⟩)) :: rest ∧ (s.thr 0).exc = none ∧
      s.data.ad.live 0 = true ∧ step (client (poolApp (tableP demoLive))) s (.th 0 .go) = some s') ∧
    (∃ (s s' : DPSt) (rest : _), PR (tableP demoLive) () 1 s ∧ s.stk 0 = .client (.app (if true then .stIn 0 1 else .cpIn 0 1 ⟨0, 0⟩)) :: rest ∧ (s.thr 0).exc = none ∧
      s.data.ad.obj 0 = some ⟨some 0, some 0⟩ ∧ s.data.ad.mix 0 = false ∧ step (client (poolApp (tableP demoLive))) s (.th 0 .go) = some s') ∧
    ∃ (s s' : DPSt) (rest : _), PR (tableP demoLive) () 1 s ∧ s.stk 0 = .client (.app (.nwFin 0 (.sched 0 0 1))) :: rest ∧ (s.thr 0).exc = none ∧
      s.data.ad.obj 0 = some ⟨some 0, some 0⟩ ∧ s.data.ad.mix 0 = false ∧ step (client (poolApp (tableP demoLive))) s (.th 0 .go) = some s' := by
  refine ⟨?_, ?_, ?_⟩
  · obtain ⟨s, s', h1, h2, h3⟩ := pwit2 (l := demoLive) (ls := pgo 0 19) (ls' := [.th 0 .go]) (fun s s' =>
      (s.stk 0, (s.thr 0).exc, s.data.ad.live 0)) (b := ([.client (.app (.jsIn ⟨1, some 0, some 0⟩)), .client (.app (.usr 5))], none, true)) (by decide +kernel)
    simp only [Prod.mk.injEq] at h3
    obtain ⟨a1, a2, a3⟩ := h3
    refine ⟨s, s', _, h1, a1, a2, a3, ?_⟩
    simp only [run] at h2
    split at h2
    · cases h2
    · rename_i h; rw [h, ← h2]
  · obtain ⟨s, s', h1, h2, h3⟩ := pwit2 (l := demoLive) (ls := pgo 0 20) (ls' := [.th 0 .go]) (fun s s' =>
      (s.stk 0, (s.thr 0).exc, s.data.ad.obj 0, s.data.ad.mix 0)) (b := ([.client (.app (.stIn 0 1)), .client (.app (.usr 5))], none, some ⟨some 0, some 0⟩, false)) (by decide +kernel)
    simp only [Prod.mk.injEq] at h3
    obtain ⟨a1, a2, a3, a4⟩ := h3
    refine ⟨s, s', _, h1, a1, a2, a3, a4, ?_⟩
    simp only [run] at h2
    split at h2
    · cases h2
    · rename_i h; rw [h, ← h2]
  · obtain ⟨s, s', h1, h2, h3⟩ := pwit2 (l := demoLive) (ls := pgo 0 17) (ls' := [.th 0 .go]) (fun s s' =>
      (s.stk 0, (s.thr 0).exc, s.data.ad.obj 0, s.data.ad.mix 0)) (b := ([.client (.app (.nwFin 0 (.sched 0 0 1))), .client (.app (.usr 4))], none, some ⟨some 0, some 0⟩, false)) (by decide +kernel)
    simp only [Prod.mk.injEq] at h3
    obtain ⟨a1, a2, a3, a4⟩ := h3
    refine ⟨s, s', _, h1, a1, a2, a3, a4, ?_⟩
    simp only [run] at h2
    split at h2
    · cases h2
    · rename_i h; rw [h, ← h2]

/-- The histories of the pools in `demoMoved` and `demoOther`. -/
def demoHist1 : List (PEv Nat) := [.returned 0 0 1 0, .sched 0 0 1 demoA ⟨0, 5⟩, .packed 1 1, .packed 0 0, .made 0 0]

@[inherit_doc demoHist1] def demoHist2 : List (PEv Nat) :=
  [.returned 0 1 1 2, .sched 0 1 1 demoB ⟨0, 5⟩, .packed 3 3, .packed 2 2, .made 0 1, .returned 0 0 1 0, .sched 0 0 1 demoA ⟨0, 5⟩, .packed 1 1, .packed 0 0, .made 0 0]

set_option synthInstance.maxSize 1024 in
set_option synthInstance.maxHeartbeats 400000 in
/-- **The claim C50 does not hold for a pool that was moved**: the sentinel moves with the pool and is alive (pool 0 exists, at address 1, and the job is
    pending), but the job_future remembers the old address: its stop dereferences the null `impl_` of the moved-from object (the model terminates). -/
theorem C50_moved : ∃ s s' : DPSt, PR (tableP demoMoved) () 1 s ∧ s.data.ad.live 0 = true ∧ s.data.ad.obj 1 = some ⟨some 0, some 0⟩ ∧ s.data.ad.sim 0 = 0 ∧
    Pending 0 1 s.data.ad.plog ∧ s.stk 0 = [.client (.app (.jsIn ⟨1, some 0, some 0⟩)), .client (.app (.usr 6))] ∧
    run (client (poolApp (tableP demoMoved))) s (pgo 0 2) = some s' ∧ s'.term = true := by
  obtain ⟨s, s', h1, h2, h3⟩ := pwit2 (l := demoMoved) (ls := pgo 0 21) (ls' := pgo 0 2) (fun s s' =>
    (decide (s.data.ad.live 0 = true ∧ s.data.ad.obj 1 = some ⟨some 0, some 0⟩ ∧ s.data.ad.sim 0 = 0), s.data.ad.plog, s.stk 0, s'.term))
    (b := (true, demoHist1,
      [.client (.app (.jsIn ⟨1, some 0, some 0⟩)), .client (.app (.usr 6))], true)) (by decide +kernel)
  simp only [Prod.mk.injEq] at h3
  obtain ⟨a1, a4, a5, a6⟩ := h3
  obtain ⟨a1, a2, a3⟩ := of_decide_eq_true a1
  exact ⟨s, s', h1, a1, a2, a3, by rw [a4]; simp only [Pending]; decide, a5, h2, a6⟩

set_option synthInstance.maxSize 1024 in
set_option synthInstance.maxHeartbeats 400000 in
/-- If another pool lives at the old address, the job_future stops a job of that pool: its sentinel is made for pool 0, whose job stays pending. -/
theorem C50_other : ∃ s s' : DPSt, PR (tableP demoOther) () 1 s ∧ s.data.ad.live 0 = true ∧ s.data.ad.sim 0 = 0 ∧ s.data.ad.obj 1 = some ⟨some 0, some 0⟩ ∧
    s.stk 0 = [.client (.app (.jsIn ⟨1, some 0, some 0⟩)), .client (.app (.usr 9))] ∧ run (client (poolApp (tableP demoOther))) s (pgo 0 4) = some s' ∧
    s'.data.ad.plog = .stopped 0 1 1 demoB :: s.data.ad.plog ∧ Pending 0 1 s'.data.ad.plog := by
  obtain ⟨s, s', h1, h2, h3⟩ := pwit2 (l := demoOther) (ls := pgo 0 38) (ls' := pgo 0 4) (fun s s' =>
    (decide (s.data.ad.live 0 = true ∧ s.data.ad.sim 0 = 0 ∧ s.data.ad.obj 1 = some ⟨some 0, some 0⟩), s.stk 0, s.data.ad.plog, s'.data.ad.plog))
    (b := (true, [.client (.app (.jsIn ⟨1, some 0, some 0⟩)), .client (.app (.usr 9))],
      demoHist2,
      .stopped 0 1 1 demoB :: demoHist2)) (by decide +kernel)
  simp only [Prod.mk.injEq] at h3
  obtain ⟨a1, a4, a5, a6⟩ := h3
  obtain ⟨a1, a2, a3⟩ := of_decide_eq_true a1
  refine ⟨s, s', h1, a1, a2, a3, a4, h2, by rw [a6, a5], ?_⟩
  rw [a6]; simp only [Pending]; decide

end Itc
