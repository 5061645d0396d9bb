import Verif.Props.Live
import Verif.Props.PoolIdle
import Verif.Props.PoolWork
import Verif.Pool.Dtor
import Verif.Pool.Call

/-!
# C67: every job of a pool is taken, once no more jobs are added

For arbitrary user code and an infinite execution; vocabulary of `Verif.Props.Live` and `Verif.Pool.Spec`.  Jobs of high priority that are added again and again may keep
a job of low priority waiting for ever, so the claim is about executions in which from some moment on no job is added to the pool and no priority is changed.
-/
namespace Itc
open Core Sync Pool
section
variable {α φ δ χ : Type} {U : PApp α φ δ χ} {u0 : δ} {f0 : φ} {r : Run (client (poolApp U))} {i N : Nat} {w : Wk}

/-- From `N` on no job is added to pool `i` and no priority is changed. -/
def Settled (r : Run (client (poolApp U))) (i N : Nat) : Prop :=
  ∀ m, N ≤ m → schedIds i (r.st m).data.ad.plog = schedIds i (r.st N).data.ad.plog ∧ ∀ id, curGrp i id (r.st m).data.ad.plog = curGrp i id (r.st N).data.ad.plog

theorem Run.plogm (r : Run (client (poolApp U))) {m n : Nat} (h : m ≤ n) {e : PEv α} (he : e ∈ (r.st m).data.ad.plog) : e ∈ (r.st n).data.ad.plog := by
  obtain ⟨k, rfl⟩ := Nat.exists_eq_add_of_le h
  induction k with
  | zero => exact he
  | succ k ih => exact (plog_suffix (r.ok (m + k))).subset (ih (by omega))

theorem filterMap_inj {β γ : Type} {f : β → Option γ} {a b : β} {x : γ} (ha : f a = some x) (hb : f b = some x) :
    ∀ {l : List β}, (l.filterMap f).Nodup → a ∈ l → b ∈ l → a = b
  | [], _, h, _ => by cases h
  | y :: l, hn, h1, h2 => by
    have key : ∀ {z : β}, f z = some x → z ∈ l → f y = some x → False := by
      intro z hz hm hy
      rw [List.filterMap_cons_some hy] at hn
      exact (List.nodup_cons.1 hn).1 (List.mem_filterMap.2 ⟨z, hm, hz⟩)
    rcases List.mem_cons.1 h1 with rfl | h3 <;> rcases List.mem_cons.1 h2 with rfl | h4
    · rfl
    · exact (key hb h4 ha).elim
    · exact (key ha h3 hb).elim
    · refine filterMap_inj ha hb (l := l) ?_ h3 h4
      rw [List.filterMap_cons] at hn
      split at hn
      · exact hn
      · exact (List.nodup_cons.1 hn).2

theorem mkToks_i {i lvl : Nat} {x : Tok} : ∀ {wk : List Wk} {n : Nat}, x ∈ mkToks i lvl n wk → x.i = i
  | [], _, h => by cases h
  | w :: wk, n, h => by
    simp only [mkToks] at h
    split at h
    · rcases List.mem_cons.1 h with rfl | h
      · rfl
      · exact mkToks_i h
    · exact mkToks_i h

/-- The loop of a worker. -/
theorem wk_isLoop : IsLoop (client (poolApp U)) (.app .wkLoop) where
  on v d rv := ⟨.go, rfl⟩
  wait v d rv ch d' a hv h := by
    cases ch <;> simp [client, poolApp, pstep, hv, liftAct] at h
    exact h.2.symm

/-- A new notification for pool `i` means a new job or a new priority. -/
theorem opn_settled {s s' : PSt α φ δ} {l : Lbl (PCh χ)} (hr : PR U u0 f0 s) (hs : Core.step (client (poolApp U)) s l = some s')
    (h1 : schedIds i s'.data.ad.plog = schedIds i s.data.ad.plog) (h2 : ∀ id, curGrp i id s'.data.ad.plog = curGrp i id s.data.ad.plog)
    {x : Tok} (hx : x ∈ s'.data.ad.opn) (hi : x.i = i) : x ∈ s.data.ad.opn := by
  cases l with
  | tick n => rw [step_tick _ s s' n hs] at hx; exact hx
  | th t ch =>
    have J := ji hr i
    cases mv hr hs with
    | app g rest a he hst hd hact hA =>
      obtain ⟨ch', hA⟩ := hA
      generalize s'.data.ad = ad' at hA hx h1 h2
      clear hact
      cases pool_pc hA with
      | usr g ch u wa hU => exact hx
      | ck x d' id c hP => cases hP <;> exact List.mem_of_mem_erase hx
      | ps f d' a hf hb hP =>
        clear hA
        cases hP
        case ajIn i' h g c =>
          rcases List.mem_append.1 hx with hx | hx
          · exact hx
          · exfalso
            obtain rfl : i' = i := (mkToks_i hx).symm.trans hi
            have := congrArg List.length h1
            simp [addH, insJob, PData.ev, PData.upd, schedIds, PEv.schedId] at this
        case cpBody i' id g j c hj hc hg =>
          rcases List.mem_append.1 hx with hx | hx
          · exact hx
          · exfalso
            obtain rfl : i' = i := (mkToks_i hx).symm.trans hi
            obtain ⟨h3, rfl⟩ := findJob_mem hj
            have h4 := J.cur j h3
            have h5 := h2 j.id
            rw [h4] at h5
            simp [addH, chgJob, PData.ev, PData.upd, curGrp] at h5
            exact hg h5.symm
        case ckExit => exact List.mem_of_mem_erase hx
        case wtEnd i k dn => cases dn <;> exact hx
        case wtGo i k dn p l => cases dn <;> exact hx
        all_goals first
          | exact hx
          | (subst_vars; exact hx)
    | sync f rest a he hst hS hact had => rw [had] at hx; exact hx
    | hand e f f' rest he hst hn hf hst' he' hd had => rw [had] at hx; exact hx
    | drop e f rest he hst hn hf hst' he' hd had => rw [had] at hx; exact hx
    | core f rest pre hst hpre hst' hd had => rw [had] at hx; exact hx
    | still hst' he' hd had => rw [had] at hx; exact hx

theorem opn_old (hr : PR U u0 f0 (r.st 0)) (hN : Settled r i N) {x : Tok} (hi : x.i = i) {m n : Nat} (hm : N ≤ m) (hmn : m ≤ n)
    (hx : x ∈ (r.st n).data.ad.opn) : x ∈ (r.st m).data.ad.opn := by
  obtain ⟨k, rfl⟩ := Nat.exists_eq_add_of_le hmn
  induction k with
  | zero => exact hx
  | succ k ih =>
    refine ih (by omega) (opn_settled (r.reach hr (m + k)) (r.ok (m + k)) ?_ ?_ hx hi)
    · exact ((hN (m + k + 1) (by omega)).1).trans ((hN (m + k) (by omega)).1).symm
    · exact fun id => ((hN (m + k + 1) (by omega)).2 id).trans ((hN (m + k) (by omega)).2 id).symm

section
variable {c j : Nat}

/-- A notification of the worker is served. -/
theorem tok_served (hr : PR U u0 f0 (r.st 0)) (h : Loops r { sd := {}, ad := { u := u0 } } (.app (.usr f0)) w.n c (.app .wkLoop) [])
    (hat : AtLoop w.n c (.app .wkLoop) [] (r.st j)) (hreg : Ev.registered c w.id w.n ∈ (r.st j).log)
    (hlk : ∀ n, ∃ m, n ≤ m ∧ (r.st m).data.sd.lk (.user (gd i)) = none)
    {x : Tok} (hx : tokOf i w x = true) (n : Nat) : ∃ m, n ≤ m ∧ x ∉ (r.st m).data.ad.opn := by
  by_contra hcon
  push Not at hcon
  simp only [tokOf, decide_eq_true_eq] at hx
  obtain ⟨hi, hid, hL⟩ := hx
  have hregm : ∀ m, j ≤ m → Ev.registered c w.id w.n ∈ (r.st m).log := fun m hm => r.logm hm hreg
  have ran : ∀ u m, n ≤ m → j ≤ m → Ran u x (r.st m).log → False := by
    intro u m hm hjm hu
    have hfr : ∀ m', m ≤ m' → (.client (.app (.ckIn x)) ∈ (r.st m').stk w.n ∨ .client (.app (.ckBody x)) ∈ (r.st m').stk w.n) := by
      intro m' hm'
      have hu' : Ran u x (r.st m').log := hu.imp (fun ⟨c, h⟩ => ⟨c, r.logm hm' h⟩) fun ⟨c, h⟩ => ⟨c, r.logm hm' h⟩
      have h1 := ran_frame (r.reach hr m') (hcon m' (by omega)) hu'
      have : ∃ c, Ev.registered c x.w u ∈ (r.st m').log := by
        rcases h1 with h1 | h1
        · exact (ck_thread (r.reach hr m') (.inl rfl) h1).imp fun _ h => h.1
        · exact (ck_thread (r.reach hr m') (.inr rfl) h1).imp fun _ h => h.1
      obtain ⟨c', h2⟩ := this
      rw [hid] at h2
      obtain ⟨-, rfl, -⟩ := reg_uniq (r.reach hr m') (hregm m' (by omega)) h2
      exact h1
    obtain ⟨m', -, ha, -, h1 | ⟨j', dl, -, h2⟩⟩ := h.far hat m
    · have := hfr m' h1
      rw [ha.stk] at this
      simp at this
    · have := hfr (max m j') (by omega)
      rw [(h2 (max m j') (by omega)).stk] at this
      simp at this
  obtain ⟨m, hm, hl⟩ := hlk (max n j)
  have R := r.reach hr m
  rcases tok_loc R (hcon m (by omega)) with ⟨t, i', l, cur, K, h1, h2⟩ | ⟨t, ⟨c', h1⟩ | h1 | h1⟩
  · have hj : x.i = i' := ((tyF R h1).2.1 x (h2.imp id fun h => h)).1
    rw [← hj, hi] at h1
    exact nw_held R h1 hl
  · obtain ⟨l1, l2, hl'⟩ := List.append_of_mem h1
    obtain ⟨n', h2⟩ := (LInv.reach R).hist.split hl'
    have h2 : Ev.registered c' x.w n' ∈ (r.st m).log := by rw [hl']; simp [h2]
    rw [hid] at h2
    obtain ⟨rfl, rfl, -⟩ := reg_uniq R (hregm m (by omega)) h2
    obtain ⟨k, hk, hk'⟩ := List.getElem_of_mem (acc_mem h1)
    obtain ⟨m', hm'⟩ := h.start hat (j := m) (n := k) (k := .app (.check x)) (by rw [List.getElem?_eq_getElem hk, hk'])
    obtain ⟨u, hu⟩ := mem_stas.1 (List.mem_of_getElem? hm')
    exact ran u (max m m') (by omega) (by omega) (.inl ⟨c, r.logm (by omega) hu⟩)
  · exact ran t m (by omega) (by omega) (.inr ⟨_, h1⟩)
  · obtain ⟨c', n', h1⟩ := ref_unr R h1
    obtain ⟨a1, -, a2⟩ := ((LInv.reach R).unr _ _ _).1 h1
    have h2 := ((LInv.reach R).regd c' x.w n').2 ⟨a1, a2⟩
    rw [hid] at h2
    obtain ⟨rfl, rfl, -⟩ := reg_uniq R (hregm m (by omega)) h2
    exact h.unr hat _ _ _ h1

/-- Worker `w` of pool `i` executes its loop with local context `c`, the scheduler is weakly fair to it, and the tasks that it executes return, as do their destructors. -/
structure Works (r : Run (client (poolApp U))) (i : Nat) (w : Wk) (c j : Nat) : Prop where
  just : r.Just w.n
  reg : Ev.registered c w.id w.n ∈ (r.st j).log
  loop : AtLoop w.n c (.app .wkLoop) [] (r.st j)
  wk : ∀ m, j ≤ m → w ∈ ((r.st m).data.ad.imp i).wk
  run : ∀ k b, r.Returns w.n ((client (poolApp U)).run k) [.core (.ran c k (.toWait b)), .client (.app .wkLoop)]
  drop : ∀ k b, r.Returns w.n ((client (poolApp U)).destroy k) [.core (.freed c k (.toWait b)), .client (.app .wkLoop)]

/-- The thread with local context `c` is told to exit or is unregistered. -/
def Told (r : Run (client (poolApp U))) (c : Nat) : Prop := (∃ m, .exitSet c ∈ (r.st m).log) ∨ ∃ m id n, .unregistered c id n ∈ (r.st m).log

theorem Works.loops (hr : PR U u0 f0 (r.st 0)) (h : Works r i w c j) (ht : ¬ Told r c) :
    Loops r { sd := {}, ad := { u := u0 } } (.app (.usr f0)) w.n c (.app .wkLoop) [] := by
  simp only [Told, not_or, not_exists] at ht
  exact ⟨⟨hr, h.just, .of ht.2, h.run, h.drop⟩, wk_isLoop, ht.1⟩

/-- **C67.** A worker of pool `i` executes its loop (`Works`).  The mutex of the pool is not held for ever, and from `N` on no job is added to the pool and no priority
    is changed.  Then there is a moment at which all jobs of levels that the worker serves have been taken by a worker, or stopped or discarded; unless the worker is told
    to exit or is unregistered. -/
theorem C67_jobs (hr : PR U u0 f0 (r.st 0)) (hs : Works r i w c j) (hlk : ∀ n, ∃ m, n ≤ m ∧ (r.st m).data.sd.lk (.user (gd i)) = none) (hN : Settled r i N) :
    (∃ m, N ≤ m ∧ ∀ id g, id ∈ schedIds i (r.st m).data.ad.plog → curGrp i id (r.st m).data.ad.plog = some g → w.lvl ≤ g.lvl →
      id ∈ takenIds i (r.st m).data.ad.plog ∨ id ∈ cutIds i (r.st m).data.ad.plog) ∨ Told r c := by
  classical
  by_contra hcon
  rw [not_or] at hcon
  obtain ⟨h1, ht⟩ := hcon
  have h := hs.loops hr ht
  obtain ⟨hj, hreg, hat, hw, -, -⟩ := hs
  -- all notifications are served
  have all : ∀ l : List Tok, ∃ m, max N j ≤ m ∧ ∀ x ∈ l, tokOf i w x = true → x ∉ (r.st m).data.ad.opn := by
    intro l
    induction l with
    | nil => exact ⟨max N j, Nat.le_refl _, by simp⟩
    | cons x l ih =>
      obtain ⟨m, h4, h5⟩ := ih
      by_cases hx : tokOf i w x = true
      · obtain ⟨m', h6, h7⟩ := tok_served hr h hat hreg hlk hx m
        refine ⟨m', by omega, fun y hy hyt => ?_⟩
        rcases List.mem_cons.1 hy with rfl | hy
        · exact h7
        · have hyi : y.i = i := by simp only [tokOf, decide_eq_true_eq] at hyt; exact hyt.1
          exact fun hc => h5 y hy hyt (opn_old hr hN hyi (by omega) h6 hc)
      · refine ⟨m, h4, fun y hy hyt => ?_⟩
        rcases List.mem_cons.1 hy with rfl | hy
        · exact absurd hyt hx
        · exact h5 y hy hyt
  obtain ⟨m, hm, h4⟩ := all (r.st (max N j)).data.ad.opn
  have R := r.reach hr m
  refine h1 ⟨m, by omega, fun id g hsc hg hle => ?_⟩
  by_contra hc
  rw [not_or] at hc
  have hq := pend_job R ⟨hsc, hc.1, hc.2⟩ hg
  have hel : (⟨id, g⟩ : Hd) ∈ elig w.lvl ((r.st m).data.ad.imp i).q := by simp [elig, hq, hle]
  rcases (toks R).cnt (hw m (by omega)) with h5 | ⟨t, x, h5, hid⟩
  · have : (r.st m).data.ad.opn.countP (tokOf i w) = 0 := List.countP_eq_zero.2 fun x hx ht => by
      have hxi : x.i = i := by simp only [tokOf, decide_eq_true_eq] at ht; exact ht.1
      exact h4 x (opn_old hr hN hxi (by omega) hm hx) ht hx
    rw [this] at h5
    rw [List.length_eq_zero_iff.1 (Nat.le_zero.1 h5)] at hel
    cases hel
  · obtain ⟨c', h6, h7⟩ := exits_why R h5
    rw [hid] at h6 h7
    obtain ⟨rfl, rfl, -⟩ := reg_uniq R (r.logm (by omega) hreg) h6
    rcases h7 with h7 | h7
    · exact ht (.inr ⟨_, _, _, h7⟩)
    · exact ht (.inl ⟨_, h7⟩)

/-- What a worker that executes its loop has taken gets executed. -/
theorem took_done (hr : PR U u0 f0 (r.st 0)) (hs : Works r i w c j) (ht : ¬ Told r c) {q : Nat} {k : Call α} (hk : TookBy (r.st q).data.ad w.n k) :
    ∃ m, q ≤ m ∧ rdy (r.st m).data.sd k.p := by
  have hmon : ∀ m, q ≤ m → TookBy (r.st m).data.ad w.n k := fun m hm => by
    obtain ⟨i', L, id, h, hk⟩ := hk
    exact ⟨i', L, id, h, r.plogm hm hk⟩
  have key : ∀ m, q ≤ m → ((r.st m).stk w.n = [.client (.app .wkLoop)] ∨ ∃ dl, (r.st m).stk w.n = [.core (.parked c dl), .client (.app .wkLoop)]) →
      rdy (r.st m).data.sd k.p := by
    intro m hm hst
    rcases took_over (r.reach hr m) _ _ (hmon m hm) with h | ⟨-, x, id, rest, h⟩ | ⟨x, id, h⟩
    · exact h
    · rcases hst with h1 | ⟨dl, h1⟩ <;> rw [h1] at h <;> simp at h
    · rcases hst with h1 | ⟨dl, h1⟩ <;> rw [h1] at h <;> simp at h
  obtain ⟨m, -, ha, -, h1 | ⟨j', dl, -, h2⟩⟩ := (hs.loops hr ht).far hs.loop q
  · exact ⟨m, h1, key m h1 (.inl ha.stk)⟩
  · exact ⟨max q j', by omega, key _ (by omega) (.inr ⟨dl, (h2 (max q j') (by omega)).stk⟩)⟩

/-- A job of a level that some worker serves is executed. -/
theorem job_ready (hr : PR U u0 f0 (r.st 0))
    (hs : ∀ m t L n id, .worker t i L n id ∈ (r.st m).data.ad.plog → ∃ c j, Works r i ⟨L, n, id⟩ c j ∧ ¬ Told r c)
    (hlk : ∀ n, ∃ m, n ≤ m ∧ (r.st m).data.sd.lk (.user (gd i)) = none) (hN : Settled r i N)
    {t id : Nat} {k : Call α} {g0 g : Grp} (hk : .sched t i id k g0 ∈ (r.st N).data.ad.plog) (hg : curGrp i id (r.st N).data.ad.plog = some g)
    (hw : ∃ m t L n id, .worker t i L n id ∈ (r.st m).data.ad.plog ∧ L ≤ g.lvl) :
    ∃ m, N ≤ m ∧ (id ∈ cutIds i (r.st m).data.ad.plog ∨ .sched t i id k g0 ∈ (r.st m).data.ad.plog ∧ rdy (r.st m).data.sd k.p) := by
  obtain ⟨m0, t0, L, n, wid, hw, hL⟩ := hw
  obtain ⟨c, j, h1, h2⟩ := hs m0 t0 L n wid hw
  rcases C67_jobs hr h1 hlk hN with ⟨m, hm, h3⟩ | h3
  · have hk' : .sched t i id k g0 ∈ (r.st m).data.ad.plog := r.plogm hm hk
    rcases h3 id g (List.mem_filterMap.2 ⟨_, hk', by simp [PEv.schedId]⟩) (((hN m hm).2 id).trans hg) hL with h4 | h4
    · obtain ⟨e, he, h5⟩ := List.mem_filterMap.1 h4
      cases e <;> simp only [PEv.takenId, reduceCtorEq] at h5
      rename_i v i' L' id' k' hd
      split at h5
      · next hi =>
        subst hi
        obtain rfl := Option.some.inj h5
        obtain ⟨t2, g2, h6⟩ := took_schd (r.reach hr m) he
        have h7 := filterMap_inj (f := PEv.schedId i') (x := id') (by simp [PEv.schedId]) (by simp [PEv.schedId]) (ji (r.reach hr m) i').nod hk' h6
        obtain ⟨-, -, -, rfl, -⟩ := PEv.sched.inj h7
        obtain ⟨l1, l, hl⟩ := List.append_of_mem he
        obtain ⟨t3, wid, h8⟩ := (C44_worker (r.reach hr m) hl).1 _ _ _ _ _ _ rfl
        obtain ⟨c2, j2, h9, h10⟩ := hs m t3 L' v wid (by rw [hl]; simp [h8])
        obtain ⟨m', h11, h12⟩ := took_done hr h9 h10 ⟨_, _, _, _, he⟩
        exact ⟨m', by omega, .inr ⟨r.plogm (by omega) hk', h12⟩⟩
      · cases h5
    · exact ⟨m, hm, .inl h4⟩
  · exact absurd h3 h2

/-- **C67, the future.** If every worker of the pool executes its loop, then the future that `schedule` returned for a job of a level that some worker serves becomes ready,
    unless the job is stopped or discarded, or a worker is told to exit or is unregistered.  (By `C61` whoever waits for it then returns.) -/
theorem C67_ready (hr : PR U u0 f0 (r.st 0))
    (hs : ∀ m t L n id, .worker t i L n id ∈ (r.st m).data.ad.plog → ∃ c j, Works r i ⟨L, n, id⟩ c j ∧ ¬ Told r c)
    (hlk : ∀ n, ∃ m, n ≤ m ∧ (r.st m).data.sd.lk (.user (gd i)) = none) (hN : Settled r i N)
    {t id : Nat} {k : Call α} {g0 g : Grp} (hk : .sched t i id k g0 ∈ (r.st N).data.ad.plog) (hg : curGrp i id (r.st N).data.ad.plog = some g)
    (hw : ∃ m t L n id, .worker t i L n id ∈ (r.st m).data.ad.plog ∧ L ≤ g.lvl) :
    ∃ m, N ≤ m ∧ (id ∈ cutIds i (r.st m).data.ad.plog ∨ (r.st m).data.sd.ready k.u = true) := by
  obtain ⟨m, h1, h2⟩ := job_ready hr hs hlk hN hk hg hw
  exact ⟨m, h1, h2.imp (fun h => h) fun ⟨h3, h4⟩ => up_ready (r.reach hr m) ⟨_, _, h3⟩ h4.2⟩

end
end

/-! ## A concrete case -/

/-- Main makes a pool with one worker, of level 1, and schedules a job of level 0 and one of level 1; the worker executes the latter and waits. -/
def livePool : List (Lbl (PCh Unit)) := pgo 0 41 ++ pgo 1 8 ++ ptop 1 1 ++ pgo 1 55

/-- The check that the worker executes. -/
def liveChk : STask (PTask Nat) := .app (.check ⟨0, 0, 1, 2⟩)

def liveRan : List (Frame (STask (PTask Nat)) (SFrame (PTask Nat) (PFrame Nat Nat))) := [.core (.ran 1 liveChk (.toWait false)), .client (.app .wkLoop)]
def liveFreed : List (Frame (STask (PTask Nat)) (SFrame (PTask Nat) (PFrame Nat Nat))) := [.core (.freed 1 liveChk (.toWait false)), .client (.app .wkLoop)]

/-- The events of the pool after step 41, and those after it. -/
def liveEvs : List (PEv Nat) :=
  [.done 1 0 2 ⟨3, 2, 20⟩, .took 1 0 1 2 ⟨3, 2, 20⟩ ⟨2, ⟨1, 5⟩⟩]

def liveWk : PEv Nat → Option (Nat × Nat × Nat)
  | .worker _ _ l n id => some (l, n, id)
  | _ => none

/-- What is observed of step `i`. -/
def liveOk (i : Nat) (s : DPSt) : Bool :=
  (if i < 47 ∨ 103 ≤ i then decide ((s.stk 1).length ≤ 2) else if i ≤ 100 then liveRan.isSuffixOf (s.stk 1) else liveFreed.isSuffixOf (s.stk 1)) &&
  decide (45 ≤ i → (s.data.ad.imp 0).wk = [⟨1, 1, 2⟩]) && decide ((s.thr 1).exc = none)

set_option synthInstance.maxSize 1024 in
set_option synthInstance.maxHeartbeats 400000 in
theorem livePool_tab : (List.range 106).all (fun i => ((pexec demoIdle (livePool.take i)).map (liveOk i)).getD false) = true := by decide +kernel

set_option synthInstance.maxSize 1024 in
set_option synthInstance.maxHeartbeats 400000 in
theorem livePool_evs : (List.range 65).all (fun i => match pexec demoIdle (livePool.take (41 + i)), pexec demoIdle (livePool.take 41) with
    | some s, some s0 => decide (s.data.ad.plog = liveEvs.drop (if i < 9 then 2 else if i < 44 then 1 else 0) ++ s0.data.ad.plog)
    | _, _ => false) = true := by decide +kernel

set_option synthInstance.maxSize 1024 in
set_option synthInstance.maxHeartbeats 400000 in
theorem livePool_end : (pexec demoIdle livePool).map (fun s => ((s.ub, s.term, (s.ctxs 1).cv, (s.ctxs 1).wakeup, decide ((s.ctxs 1).life = .alive)),
    s.stk 1, decide (s.data.sd.lk (.user (gd 0)) = none), s.log.any (fun | .exitSet c => c == 1 | .unregistered c _ _ => c == 1 | _ => false),
    s.data.ad.plog.filterMap liveWk)) =
    some ((false, false, false, false, true), [.core (.parked 1 none), .client (.app .wkLoop)], true, false, [(1, 1, 2)]) := by decide +kernel

set_option synthInstance.maxSize 1024 in
set_option synthInstance.maxHeartbeats 400000 in
theorem livePool_41 : (pexec demoIdle (livePool.take 41)).map (fun s =>
    (decide (.sched 0 0 2 ⟨3, 2, 20⟩ ⟨1, 5⟩ ∈ s.data.ad.plog), curGrp 0 2 s.data.ad.plog, decide (2 ∈ takenIds 0 s.data.ad.plog), decide (.worker 0 0 1 1 2 ∈ s.data.ad.plog))) =
    some (true, some ⟨1, 5⟩, false, true) := by decide +kernel

set_option synthInstance.maxSize 1024 in
set_option synthInstance.maxHeartbeats 400000 in
theorem livePool_45 : (pexec demoIdle (livePool.take 45)).map (fun s => (s.stk 1, s.loc 1, decide (Ev.registered 1 2 1 ∈ s.log))) =
    some ([.client (.app .wkLoop)], some 1, true) := by decide +kernel

set_option synthInstance.maxSize 1024 in
set_option synthInstance.maxHeartbeats 400000 in
theorem livePool_ret : (pexec demoIdle (livePool.take 100)).map (fun s => s.stk 1) = some liveRan ∧
    (pexec demoIdle (livePool.take 102)).map (fun s => s.stk 1) = some liveFreed := by decide +kernel

/-- The hypotheses of `C67_jobs` and `C67_ready` are met, and there is something to do: the job of level 1 is scheduled at 41 and has not been taken. -/
example : ∃ r : Run (client (poolApp (tableP demoIdle))), PR (tableP demoIdle) () 1 (r.st 0) ∧ Works r 0 ⟨1, 1, 2⟩ 1 45 ∧
    (∀ m t L n id, .worker t 0 L n id ∈ (r.st m).data.ad.plog → ∃ c j, Works r 0 ⟨L, n, id⟩ c j ∧ ¬ Told r c) ∧
    (∀ n, ∃ m, n ≤ m ∧ (r.st m).data.sd.lk (.user (gd 0)) = none) ∧ Settled r 0 41 ∧
    .sched 0 0 2 ⟨3, 2, 20⟩ ⟨1, 5⟩ ∈ (r.st 41).data.ad.plog ∧ curGrp 0 2 (r.st 41).data.ad.plog = some ⟨1, 5⟩ ∧
    (∃ m t L n id, .worker t 0 L n id ∈ (r.st m).data.ad.plog ∧ L ≤ 1) ∧ 2 ∉ takenIds 0 (r.st 41).data.ad.plog := by
  obtain ⟨s', hs', ho⟩ := Option.map_eq_some_iff.1 livePool_end
  simp only [Prod.mk.injEq, decide_eq_true_eq] at ho
  obtain ⟨⟨hub, htm, hcv, hwk, hal⟩, hend, hlk, hlog, hwks⟩ := ho
  obtain ⟨r, h0, hr, hl⟩ := Run.ofList hs' hub htm
  have hlen : livePool.length = 105 := rfl
  rw [hlen] at hl
  have hobs : ∀ {β : Type} (g : DPSt → β) (i : Nat) (b : β), (pexec demoIdle (livePool.take i)).map g = some b → g (r.st i) = b := by
    intro β g i b h
    simp only [pexec, hr i, Option.map_some] at h
    exact Option.some.inj h
  have htab : ∀ i, liveOk (min i 105) (r.st i) = true := by
    intro i
    have : ∀ i, i < 106 → liveOk i (r.st i) = true := by
      intro i hi
      have h1 := List.all_eq_true.1 livePool_tab i (List.mem_range.2 hi)
      simpa only [pexec, hr i, Option.map_some, Option.getD_some] using h1
    rcases Nat.lt_or_ge i 105 with h | h
    · rw [Nat.min_eq_left (by omega)]; exact this i (by omega)
    · rw [Nat.min_eq_right h, hl i h, ← hl 105 (Nat.le_refl _)]; exact this 105 (by omega)
  simp only [liveOk, Bool.and_eq_true, decide_eq_true_eq] at htab
  have hexc : ∀ i, ((r.st i).thr 1).exc = none := fun i => (htab i).2
  have hran : ∀ i, 47 ≤ i → i ≤ 100 → liveRan <:+ (r.st i).stk 1 := fun i h1 h2 => by
    have := (htab i).1.1
    rw [if_neg (by omega), if_pos (by omega)] at this
    exact List.isSuffixOf_iff_suffix.1 this
  have hfree : ∀ i, 101 ≤ i → i ≤ 102 → liveFreed <:+ (r.st i).stk 1 := fun i h1 h2 => by
    have := (htab i).1.1
    rw [if_neg (by omega), if_neg (by omega)] at this
    exact List.isSuffixOf_iff_suffix.1 this
  have hshort : ∀ i, i < 47 ∨ 103 ≤ i → ((r.st i).stk 1).length ≤ 2 := fun i h1 => by
    have := (htab i).1.1
    rw [if_pos (by omega)] at this
    exact of_decide_eq_true this
  obtain ⟨h100, h102⟩ := livePool_ret
  have h100 := hobs (fun s => s.stk 1) 100 _ h100
  have h102 := hobs (fun s => s.stk 1) 102 _ h102
  have h45 := hobs _ 45 _ livePool_45
  have h41 := hobs _ 41 _ livePool_41
  simp only [Prod.mk.injEq, decide_eq_true_eq, decide_eq_false_iff_not] at h45 h41
  have hst : ∀ i, 105 ≤ i → (r.st i).stk 1 = [.core (.parked 1 none), .client (.app .wkLoop)] := fun i hi => by rw [hl i hi]; exact hend
  -- what is on the stack below a task
  have htop : ∀ {i g L}, (r.st i).stk 1 = g :: L → L.length = 2 → (47 ≤ i ∧ i < 100 ∧ L = liveRan) ∨ (i = 101 ∧ L = liveFreed) := by
    intro i g L h1 h2
    by_cases hi : i < 47 ∨ 103 ≤ i
    · have := hshort i hi
      rw [h1] at this
      simp [h2] at this
    · rcases Nat.lt_or_ge i 101 with h3 | h3
      · have h4 := hran i (by omega) (by omega)
        rw [h1] at h4
        have h5 : L = liveRan := by
          have := List.suffix_or_suffix_of_suffix (List.suffix_cons g L) h4
          rcases this with h | h
          · exact h.eq_of_length (by rw [h2]; rfl)
          · exact (h.eq_of_length (by rw [h2]; rfl)).symm
        refine .inl ⟨by omega, ?_, h5⟩
        rcases Nat.lt_or_ge i 100 with h6 | h6
        · exact h6
        · obtain rfl : i = 100 := by omega
          rw [h100] at h1
          have := congrArg List.length h1
          simp [liveRan, h2] at this
      · have h4 := hfree i (by omega) (by omega)
        rw [h1] at h4
        have h5 : L = liveFreed := by
          have := List.suffix_or_suffix_of_suffix (List.suffix_cons g L) h4
          rcases this with h | h
          · exact h.eq_of_length (by rw [h2]; rfl)
          · exact (h.eq_of_length (by rw [h2]; rfl)).symm
        refine .inr ⟨?_, h5⟩
        rcases Nat.lt_or_ge i 102 with h6 | h6
        · omega
        · obtain rfl : i = 102 := by omega
          rw [h102] at h1
          have := congrArg List.length h1
          simp [liveFreed, h2] at this
  have hret : ∀ {g L}, L.length = 2 → r.Returns 1 g L := by
    intro g L h2 i h1 _
    rcases htop h1 h2 with ⟨h3, h4, rfl⟩ | ⟨rfl, rfl⟩
    · exact ⟨100, h4, h100, hexc _, fun m h5 h6 => hran m (by omega) h6⟩
    · exact ⟨102, by omega, h102, hexc _, fun m h5 h6 => hfree m (by omega) h6⟩
  have hS : Works r 0 ⟨1, 1, 2⟩ 1 45 := by
    refine ⟨?_, h45.2.2, ⟨h45.1, hexc _, h45.2.1⟩, fun m hm => ?_, fun k b => hret rfl, fun k b => hret rfl⟩
    · intro i hi
      obtain ⟨ch, h1⟩ := hi (max i 105) (by omega)
      rw [hl _ (by omega)] at h1
      exfalso
      have hex : (s'.thr 1).exc = none := by rw [← hl 105 (Nat.le_refl _)]; exact hexc 105
      have hst : (s'.thr 1).stack = [.core (.parked 1 none), .client (.app .wkLoop)] := hend
      by_cases hru : (s'.thr 1).status = .running
      · rw [step, if_neg (by simp [hub, htm])] at h1
        simp only [hru, hex, hst, ne_eq, not_true, if_false, stepCore] at h1
        rw [if_neg (by simp [hal])] at h1
        cases ch <;> simp [hcv, hwk] at h1
      · simp [step, hub, htm, hru] at h1
    · have := (htab m).1.2
      rw [show ((r.st m).data.ad.imp 0).wk = _ from this (by omega)]
      simp
  have hT : ¬ Told r 1 := by
    have key : ∀ m e, e ∈ (r.st m).log → e ∈ s'.log := fun m e he => by
      rw [← hl (max m 105) (by omega)]
      exact r.logm (by omega) he
    rw [List.any_eq_false] at hlog
    rintro (⟨m, h⟩ | ⟨m, id, n, h⟩) <;> exact absurd (hlog _ (key m _ h)) (by simp)
  refine ⟨r, ?_, hS, ?_, fun n => ⟨max n 105, by omega, ?_⟩, ?_, h41.1, h41.2.1, ⟨41, 0, 1, 1, 2, h41.2.2.2, Nat.le_refl _⟩, h41.2.2.1⟩
  · rw [h0]; exact ⟨[], rfl⟩
  · intro m t L n id h
    have h1 : .worker t 0 L n id ∈ s'.data.ad.plog := by
      rw [← hl (max m 105) (by omega)]
      exact r.plogm (by omega) h
    have h2 : (L, n, id) ∈ s'.data.ad.plog.filterMap liveWk := List.mem_filterMap.2 ⟨_, h1, rfl⟩
    rw [hwks] at h2
    simp only [List.mem_singleton, Prod.mk.injEq] at h2
    obtain ⟨rfl, rfl, rfl⟩ := h2
    exact ⟨1, 45, hS, hT⟩
  · rw [hl _ (by omega)]; exact hlk
  · have key : ∀ m, 41 ≤ m → ∃ k, (r.st m).data.ad.plog = liveEvs.drop k ++ (r.st 41).data.ad.plog := by
      have k1 : ∀ m, 41 ≤ m → m < 106 → ∃ k, (r.st m).data.ad.plog = liveEvs.drop k ++ (r.st 41).data.ad.plog := by
        intro m h1 h2
        have h3 := List.all_eq_true.1 livePool_evs (m - 41) (List.mem_range.2 (by omega))
        rw [show 41 + (m - 41) = m by omega] at h3
        simp only [pexec, hr m, hr 41, decide_eq_true_eq] at h3
        exact ⟨_, h3⟩
      intro m hm
      rcases Nat.lt_or_ge m 106 with h | h
      · exact k1 m hm h
      · obtain ⟨k, hk⟩ := k1 105 (by omega) (by omega)
        exact ⟨k, by rw [hl m (by omega), ← hl 105 (Nat.le_refl _)]; exact hk⟩
    intro m hm
    obtain ⟨k, hk⟩ := key m hm
    rw [hk]
    rcases k with _ | _ | _ | k <;> exact ⟨rfl, fun _ => rfl⟩

end Itc
