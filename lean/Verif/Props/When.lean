import Verif.When.Done
import Verif.When.Demo
import Verif.When.Hold
import Verif.Sync.Stuck
import Verif.Props.Future

/-!
# C38, C39, C40: when_all and when_any

`U` is arbitrary user code: it makes promises, sets them, attaches continuations, calls when_all / when_any, blocks and throws, from any number of
threads.  The event `returned t c any ins p` says that a call of when_any (`any = true`) or when_all for the futures with the states `ins` gave its
caller the future with state `p`; both the iterator and the variadic versions are meant.
-/
namespace Itc
open Core Sync When
section
variable {α φ δ χ : Type} {U : WApp α φ δ χ} {u0 : δ} {f0 : φ} {s s' : WSt α φ δ}

/-! ## Specification -/

/-- Every one of these futures is ready. -/
def AllReady (d : SData (WTask α)) (ins : List Nat) : Prop := ∀ q ∈ ins, (d.st q).status ≠ .notSet

/-- The vector with exactly these futures, in this order (a future with state `q` is written `q + 1`, one without state `0`). -/
def exactly (ins : List Nat) : List Nat := ins.map (· + 1)

/-! ## Lemmas -/

theorem Gr.trans {a b c : WData δ} (h1 : Gr a b) (h2 : Gr b c) : Gr a c where
  n := Nat.le_trans h1.n h2.n
  any h := (h2.any (Nat.lt_of_lt_of_le h h1.n)).trans (h1.any h)
  ins h := (h2.ins (Nat.lt_of_lt_of_le h h1.n)).trans (h1.ins h)
  total h := (h2.total (Nat.lt_of_lt_of_le h h1.n)).trans (h1.total h)
  made h h' := h2.made (Nat.lt_of_lt_of_le h h1.n) (h1.made h h')
  abort h h' := h2.abort (Nat.lt_of_lt_of_le h h1.n) (h1.abort h h')
  rel h := Nat.le_trans (h1.rel h) (h2.rel (Nat.lt_of_lt_of_le h h1.n))
  proc h := Nat.le_trans (h1.proc h) (h2.proc (Nat.lt_of_lt_of_le h h1.n))
  tup h := (h2.tup (Nat.lt_of_lt_of_le h h1.n)).trans (h1.tup h)

theorem gr_run {ls : List (Lbl χ)} (hr : WR U u0 f0 s) (hs : run (client (whenApp U)) s ls = some s') : Gr s.data.ad s'.data.ad := by
  induction ls generalizing s with
  | nil => obtain rfl := Option.some.inj hs; exact Gr.refl _
  | cons l ls ih =>
    simp only [run] at hs
    split at hs
    · contradiction
    rename_i s1 h1
    exact Gr.trans (gr_step hr h1) (ih (hr.step h1) hs)

theorem ext_run {ls : List (Lbl χ)} (hs : run (client (whenApp U)) s ls = some s') : Ext s.data.sd s'.data.sd := by
  induction ls generalizing s with
  | nil => obtain rfl := Option.some.inj hs; exact Ext.refl _
  | cons l ls ih =>
    simp only [run] at hs
    split at hs
    · contradiction
    rename_i s1 h1
    exact (step_ext h1).trans (ih hs)

theorem reach_run {ls : List (Lbl χ)} (hr : WR U u0 f0 s) (hs : run (client (whenApp U)) s ls = some s') : WR U u0 f0 s' := by
  induction ls generalizing s with
  | nil => obtain rfl := Option.some.inj hs; exact hr
  | cons l ls ih =>
    simp only [run] at hs
    split at hs
    · contradiction
    rename_i s1 h1
    exact ih (hr.step h1) hs

/-- What was known about the result when it was set. -/
theorem claim_at {ls : List (Lbl χ)} (hr : WR U u0 f0 s) (hs : run (client (whenApp U)) s ls = some s') {t c p t' : Nat} {any : Bool} {ins : List Nat} {r : Res}
    (hret : .returned t c any ins p ∈ s'.data.ad.wlog) (hsat : .sat t' p r ∈ s.data.sd.slog) :
    c < s.data.ad.nctx ∧ Claim s.data.sd (s.data.ad.ctx c) r ∧ (s.data.ad.ctx c).any = any ∧ (s.data.ad.ctx c).ins.map (·.1) = ins ∧
      (s.data.ad.ctx c).abort = false ∧ homeOk s.data.sd c p := by
  have hr' : WR U u0 f0 s' := reach_run hr hs
  have hx := ext_run hs
  have hg := gr_run hr hs
  obtain ⟨h1, h2⟩ := (wt_ok hr).data.sat t' p r hsat
  obtain ⟨y1, y2, y3, y4, y5, y6⟩ := (wt_ok hr').data.i.log t c any ins p hret
  have hho : homeOk s.data.sd c p := ⟨h1, (hx.home h1).symm.trans y2.1.2.1, (hx.owner h1).symm.trans y2.1.2.2⟩
  obtain ⟨h3, h4⟩ := h2 hho.2.2 c hho.2.1
  refine ⟨h3, h4, (hg.any h3).symm.trans y3, by rw [← hg.ins h3]; exact y4, ?_, hho⟩
  cases h : (s.data.ad.ctx c).abort
  · rfl
  · rw [hg.abort h3 h] at y5; cases y5

theorem allReady_of {x : Ctx} {d : SData (WTask α)} (h : allRdy d x) : AllReady d (x.ins.map (·.1)) := by
  intro q hq
  obtain ⟨⟨q', sh⟩, h1, rfl⟩ := List.mem_map.1 hq
  obtain ⟨i, hi⟩ := List.getElem?_of_mem h1
  have := h i q' ⟨sh, hi⟩
  simpa [rdy, SData.ready] using this.2

/-! ## C38 -/

/-- The when_all future is made ready at most once; when it is ready - be it before or after when_all returns it - every input is ready, and it holds
    exactly the inputs, in order, or the exception broken_promise (a continuation that collects the inputs was discarded by its thread without
    having been run). -/
theorem C38_all {ls : List (Lbl χ)} (hr : WR U u0 f0 s) (hs : run (client (whenApp U)) s ls = some s') {t c p : Nat} {ins : List Nat}
    (hret : .returned t c false ins p ∈ s'.data.ad.wlog) :
    satCount s.data.sd.slog p ≤ 1 ∧ ((s.data.sd.st p).status ≠ .notSet → AllReady s.data.sd ins ∧
      (Holds (s.data.sd.st p) (.val (.ids (exactly ins))) ∨ Holds (s.data.sd.st p) (.exn .brokenPromise))) := by
  refine ⟨(C29_once hr p).1, fun hrd => ?_⟩
  obtain ⟨u, r, h1⟩ := (ready_sat hr p).1 (by simpa [SData.ready] using hrd)
  have h2 := (C29_once hr p).2.2 u r h1
  obtain ⟨y1, y2, y3, y4, y5, y6⟩ := claim_at hr hs hret h1
  cases r with
  | val v =>
    simp only [Claim, y3, Bool.false_eq_true, if_false] at y2
    obtain ⟨y2, rfl⟩ := y2
    refine ⟨y4 ▸ allReady_of y2, .inl ?_⟩
    rw [← y4, exactly, List.map_map]
    exact h2
  | exn e =>
    obtain ⟨rfl, -, h | h⟩ := y2
    · rw [y5] at h; cases h
    · exact ⟨y4 ▸ allReady_of h, .inr h2⟩

/-- For no inputs the future is ready when when_all returns, with the empty vector. -/
theorem empty_val (hr : WR U u0 f0 s) : ∀ c p, c < s.data.ad.nctx → (s.data.ad.ctx c).ins = [] → (s.data.ad.ctx c).abort = false → homeOk s.data.sd c p →
    ∀ t r, .sat t p r ∈ s.data.sd.slog → ∃ v, r = .val v := by
  refine Reach.induct (fun s : WSt α φ δ => ∀ c p, c < s.data.ad.nctx → (s.data.ad.ctx c).ins = [] → (s.data.ad.ctx c).abort = false → homeOk s.data.sd c p →
    ∀ t r, .sat t p r ∈ s.data.sd.slog → ∃ v, r = .val v) ?_ ?_ hr
  · intro c p hc; exact absurd hc (Nat.not_lt_zero _)
  · intro s l s' hr q hs c p h1 h2 h3 h4 t r h5
    have hr' : WR U u0 f0 s' := hr.step hs
    cases r with
    | val v => exact ⟨v, rfl⟩
    | exn e =>
      exfalso
      have hg := gr_step hr hs
      have hx := step_ext hs
      by_cases hold : s.data.sd.ready p = true
      · have hm : .exn e ∈ sats s'.data.sd.slog p := List.mem_filterMap.2 ⟨_, h5, by simp [SEv.satOf]⟩
        rw [(frozen hr hs hold).2] at hm
        obtain ⟨ev, h6, h7⟩ := List.mem_filterMap.1 hm
        have : ∃ t', ev = .sat t' p (.exn e) := by
          cases ev <;> simp only [SEv.satOf, Option.ite_none_right_eq_some, Option.some.injEq, reduceCtorEq] at h7
          obtain ⟨rfl, rfl⟩ := h7; exact ⟨_, rfl⟩
        obtain ⟨t', rfl⟩ := this
        obtain ⟨y1, y2⟩ := (wt_ok hr).data.sat t' p _ h6
        have hho : homeOk s.data.sd c p := ⟨y1, (hx.home y1).symm.trans h4.2.1, (hx.owner y1).symm.trans h4.2.2⟩
        have h8 := (y2 hho.2.2 c hho.2.1).1
        obtain ⟨v, hv⟩ := q c p h8 ((hg.ins h8).symm.trans h2) (by
          cases h : (s.data.ad.ctx c).abort
          · rfl
          · rw [hg.abort h8 h] at h3; cases h3) hho t' _ h6
        cases hv
      · have had : s'.data.ad = s.data.ad := by
          cases l with
          | tick n => rw [step_tick _ s s' n hs]
          | th t ch =>
            cases mv hr hs with
            | app x rest a he hst hd hact hA => rw [hd] at h5; exact absurd ((ready_sat hr p).2 ⟨_, _, h5⟩) hold
            | sync f rest a he hst hS hact had => exact had
            | hand e f f' rest he hst hn' hf hst' he' hd had => exact had
            | drop e f rest he hst hn' hf hst' he' hd had => exact had
            | core f rest pre hst hpre hst' hd had => exact had
            | still hst' he' hd had => exact had
        obtain ⟨y1, y2⟩ := (wt_ok hr').data.sat t p _ h5
        obtain ⟨-, -, y3, -⟩ := y2 h4.2.2 c h4.2.1
        rw [had] at h1 h2 h3 y3
        obtain ⟨p', y4, y5⟩ := (wt_ok hr).data.i.emp c h1 h2 h3 y3
        obtain rfl := home_one hr' (y4.mono hx) h4
        exact hold y5.2

/-- For no inputs the when_all future is ready as soon as when_all returns, with the empty vector. -/
theorem C38_empty (hr : WR U u0 f0 s) {t c p : Nat} (hret : .returned t c false [] p ∈ s.data.ad.wlog) :
    Holds (s.data.sd.st p) (.val (.ids [])) := by
  obtain ⟨y1, y2, y3, y4, y5, y6⟩ := (wt_ok hr).data.i.log t c false [] p hret
  have hi : (s.data.ad.ctx c).ins = [] := by simpa using y4
  obtain ⟨u, r, h1⟩ := (ready_sat hr p).1 (y2.2 hi).2
  have h2 := (C29_once hr p).2.2 u r h1
  obtain ⟨v, rfl⟩ := empty_val hr c p y1 hi y5 y2.1 u r h1
  have h3 := (((wt_ok hr).data.sat u p _ h1).2 y2.1.2.2 c y2.1.2.1).2
  simp only [Claim, y3, Bool.false_eq_true, if_false, hi] at h3
  rw [h3.2] at h2
  exact h2

/-- Once the continuations of all inputs have run to their end, the when_all future is ready, with exactly the inputs, in order. -/
theorem C38_complete (hr : WR U u0 f0 s) {t c p : Nat} {ins : List Nat} (hret : .returned t c false ins p ∈ s.data.ad.wlog) (hne : ins ≠ [])
    (hend : ∀ i < ins.length, i ∈ (s.data.ad.ctx c).ended) : Holds (s.data.sd.st p) (.val (.ids (exactly ins))) := by
  obtain ⟨y1, y2, y3, y4, y5, y6⟩ := (wt_ok hr).data.i.log t c false ins p hret
  have hci := (wt_ok hr).data.i.ctx c y1
  have hlen : ins.length = (s.data.ad.ctx c).total := by rw [hci.total, ← y4, List.length_map]
  have ht : (s.data.ad.ctx c).total ≠ 0 := by
    rw [← hlen]; intro h; exact hne (List.length_eq_zero_iff.1 h)
  have hend1 : ∀ i < (s.data.ad.ctx c).total, 1 ≤ (s.data.ad.ctx c).ended.count i := fun i hi => List.count_pos_iff.2 (hend i (hlen ▸ hi))
  have hdone : ∀ i ∈ (s.data.ad.ctx c).done, i < (s.data.ad.ctx c).total := fun i hi => by
    obtain ⟨q, h1, -⟩ := hci.done i hi; exact hci.has_lt h1
  have hle : ∀ i, (s.data.ad.ctx c).done.count i ≤ 1 := fun i => Nat.le_trans (done_le hr y1 i) (made_le hr y1 i)
  have hrd : (s.data.ad.ctx c).ready = (s.data.ad.ctx c).total := by
    rw [hci.ready y3]
    have h1 : (s.data.ad.ctx c).total ≤ (s.data.ad.ctx c).done.length := by
      have := sub_len (l := List.range (s.data.ad.ctx c).total) (m := (s.data.ad.ctx c).done) fun j => by
        by_cases hj : j < (s.data.ad.ctx c).total
        · have h1 := hend1 j hj; have h2 := ended_le hr y1 j
          have h3 : (List.range (s.data.ad.ctx c).total).count j ≤ 1 := List.nodup_iff_count_le_one.1 List.nodup_range j
          omega
        · rw [List.count_eq_zero.2 (by simpa using hj)]; exact Nat.zero_le _
      simpa using this
    have h2 := sub_len (done_le hr y1)
    have h3 := hci.madeLe
    omega
  obtain ⟨i, hi⟩ := (J.reach hr c y1 ht).all y3 hrd
  have hw : hasW s c := by
    rcases hi with h | ⟨u, f, hf, hm⟩ | h
    · exact h
    · have h1 := ended_lt hr y1 hf hm
      have h2 := hend1 i (hdone i (List.count_pos_iff.1 (by omega)))
      have := hle i
      omega
    · obtain ⟨j, hj⟩ := List.exists_mem_of_ne_nil _ h
      have h1 := List.count_pos_iff.2 hj
      have h2 := ended_le hr y1 j
      have h3 := hend1 j (hdone j (List.count_pos_iff.1 (by omega)))
      have := hle j
      omega
  obtain ⟨p', ⟨-, u, w, h1⟩, h2⟩ := hw
  obtain rfl := home_one hr h2 y2.1
  have h3 := (C29_once hr p').2.2 u _ h1
  have h4 := (((wt_ok hr).data.sat u p' _ h1).2 h2.2.2 c h2.2.1).2
  simp only [Claim, y3, Bool.false_eq_true, if_false] at h4
  rw [h4.2] at h3
  rw [← y4, exactly, List.map_map]
  exact h3

/-! ## C39 -/

/-- The when_any future is made ready at most once.  For one or more inputs, when it is ready - be it before or after when_any returns it, and
    also if inputs become ready while when_any is still attaching to them - some input is ready; it holds exactly the inputs, in order, with the index of a
    ready input, or the exception broken_promise (all continuations were discarded by their thread without having been run). -/
theorem C39_any {ls : List (Lbl χ)} (hr : WR U u0 f0 s) (hs : run (client (whenApp U)) s ls = some s') {t c p : Nat} {ins : List Nat}
    (hret : .returned t c true ins p ∈ s'.data.ad.wlog) :
    satCount s.data.sd.slog p ≤ 1 ∧ (ins ≠ [] → (s.data.sd.st p).status ≠ .notSet → ∃ i q, ins[i]? = some q ∧ (s.data.sd.st q).status ≠ .notSet ∧
      (Holds (s.data.sd.st p) (.val (.anyRes (some i) (exactly ins))) ∨ Holds (s.data.sd.st p) (.exn .brokenPromise))) := by
  refine ⟨(C29_once hr p).1, fun hne hrd => ?_⟩
  obtain ⟨u, r, h1⟩ := (ready_sat hr p).1 (by simpa [SData.ready] using hrd)
  have h2 := (C29_once hr p).2.2 u r h1
  obtain ⟨y1, y2, y3, y4, y5, y6⟩ := claim_at hr hs hret h1
  have hget : ∀ {i q}, (s.data.ad.ctx c).has i q → ins[i]? = some q := by
    rintro i q ⟨sh, h⟩
    rw [← y4, List.getElem?_map, h]; rfl
  cases r with
  | val v =>
    simp only [Claim, y3, if_true] at y2
    rcases y2 with ⟨h, -⟩ | ⟨i, q, h3, h4, rfl⟩
    · rw [h] at y4; exact absurd y4.symm hne
    · refine ⟨i, q, hget h3, by simpa [rdy, SData.ready] using h4.2, .inl ?_⟩
      rw [← y4, exactly, List.map_map]
      exact h2
  | exn e =>
    obtain ⟨rfl, -, h | h⟩ := y2
    · rw [y5] at h; cases h
    · have hall := y4 ▸ allReady_of h
      cases ins with
      | nil => exact absurd rfl hne
      | cons q ins => exact ⟨0, q, rfl, hall q (by simp), .inr h2⟩

/-- For no inputs the when_any future is ready as soon as when_any returns, with no futures and the index size_t(-1) (`none`). -/
theorem C39_empty (hr : WR U u0 f0 s) {t c p : Nat} (hret : .returned t c true [] p ∈ s.data.ad.wlog) :
    Holds (s.data.sd.st p) (.val (.anyRes none [])) := by
  obtain ⟨y1, y2, y3, y4, y5, y6⟩ := (wt_ok hr).data.i.log t c true [] p hret
  have hi : (s.data.ad.ctx c).ins = [] := by simpa using y4
  obtain ⟨u, r, h1⟩ := (ready_sat hr p).1 (y2.2 hi).2
  have h2 := (C29_once hr p).2.2 u r h1
  obtain ⟨v, rfl⟩ := empty_val hr c p y1 hi y5 y2.1 u r h1
  have h3 := (((wt_ok hr).data.sat u p _ h1).2 y2.1.2.2 c y2.1.2.1).2
  simp only [Claim, y3, if_true, hi] at h3
  rcases h3 with ⟨-, rfl⟩ | ⟨i, q, ⟨sh, h⟩, -⟩
  · exact h2
  · rw [hi] at h; simp at h

/-- Once when_any has returned and the continuation of some input has run to its end (and none has thrown), the when_any future is ready, with exactly the
    inputs, in order, and the index of a ready input. -/
theorem C39_complete (hr : WR U u0 f0 s) {t c p i : Nat} {ins : List Nat} (hret : .returned t c true ins p ∈ s.data.ad.wlog) (hne : ins ≠ [])
    (hend : i ∈ (s.data.ad.ctx c).ended) (hno : (s.data.ad.ctx c).failed = []) :
    ∃ j q, ins[j]? = some q ∧ (s.data.sd.st q).status ≠ .notSet ∧ Holds (s.data.sd.st p) (.val (.anyRes (some j) (exactly ins))) := by
  obtain ⟨y1, y2, y3, y4, y5, y6⟩ := (wt_ok hr).data.i.log t c true ins p hret
  have hci := (wt_ok hr).data.i.ctx c y1
  have ht : (s.data.ad.ctx c).total ≠ 0 := by
    rw [hci.total]; intro h; rw [List.length_eq_zero_iff.1 h] at y4; exact hne y4.symm
  have hend1 := List.count_pos_iff.2 hend
  have hle := Nat.le_trans (done_le hr y1 i) (made_le hr y1 i)
  have hw : hasW s c := by
    rcases (J.reach hr c y1 ht).any y3 (.inr ⟨y6, y5⟩) i (List.count_pos_iff.1 (by have := ended_le hr y1 i; omega)) with h | ⟨u, f, hf, hm⟩ | h
    · exact h
    · have h1 := ended_lt hr y1 hf hm; omega
    · exact absurd hno h
  obtain ⟨p', ⟨-, u, w, h1⟩, h2⟩ := hw
  obtain rfl := home_one hr h2 y2.1
  have h3 := (C29_once hr p').2.2 u _ h1
  have h4 := (((wt_ok hr).data.sat u p' _ h1).2 h2.2.2 c h2.2.1).2
  simp only [Claim, y3, if_true] at h4
  rcases h4 with ⟨h, -⟩ | ⟨j, q, ⟨sh, h5⟩, h6, rfl⟩
  · rw [h] at y4; exact absurd y4.symm hne
  · refine ⟨j, q, ?_, by simpa [rdy, SData.ready] using h6.2, ?_⟩
    · rw [← y4, List.getElem?_map, h5]; rfl
    · rw [← y4, exactly, List.map_map]
      exact h3

/-! ## C40

The claim is false: set_value of the promise of when_any, and with it every continuation that runs at once, is called while the mutex of
the context is locked (when_all_any.hpp:340-348, 357-361; in the variadic version :404-412, 70-83).  A continuation that blocks in an itc function processes the tasks of its thread; if one of
them is the continuation of another input of the same when_any, the thread locks the mutex a second time and waits for itself. -/

/-- What holds of the claim: the mutex of a context is held only by a thread that is executing a continuation of an input, or the
    end of when_any, for this very context.  So a continuation of the result that was launched by a thread without such a frame (for example one which
    another thread takes from its task queue) holds no such mutex, and does not wait for itself when it processes further tasks.
    Missing: the claim for continuations launched in place (`C40_deadlock` shows that it does not hold). -/
theorem C40_partial (hr : WR U u0 f0 s) {t : Nat} (hno : ∀ c g, .client (.app g) ∈ s.stk t → ¬ inSection c g)
    (hun : ∀ m, .client (.lkUn m) ∉ s.stk t) (c : Nat) : s.data.sd.lk (.user (pob c)) ≠ some t := by
  intro h
  obtain ⟨f, h1, h2⟩ := ((ah U f0 c).ok hr).held t h
  cases f <;> first | exact False.elim h2 | skip
  · exact hno c _ h1 h2
  · exact hun _ h1

end

/-! ## Examples -/

/-- Main makes two promises, calls when_all with their futures (the second one shared), sets the second and then the first one, and calls when_all and
    when_any without futures. -/
def demoAll : List (WAct Nat Nat) :=
  [.core .registerThis 2, .sync (.promNew 0 false) 3, .sync (.promNew 1 false) 4, .when false false [(some 0, false), (some 1, true)] 5,
   .sync (.promSet 1 (.val (.nat 8))) 6, .sync (.promSet 0 (.val (.nat 7))) 7, .when false false [] 8, .when false true [] 9, .ret .unit]

set_option synthInstance.maxSize 1024 in
set_option synthInstance.maxHeartbeats 400000 in
/-- The hypotheses of `C38_all` are met, before and after the result is ready. -/
example : ∃ s s' : DWSt, WR (tableW demoAll) () 1 s ∧ run (client (whenApp (tableW demoAll))) s (go 0 45) = some s' ∧
    .returned 0 0 false [0, 1] 2 ∈ s.data.ad.wlog ∧ (s.data.sd.st 1).status ≠ .notSet ∧ (s.data.sd.st 2).status = .notSet ∧
    .returned 0 0 false [0, 1] 2 ∈ s'.data.ad.wlog ∧ Holds (s'.data.sd.st 2) (.val (.ids [1, 2])) := by
  obtain ⟨s, s', h1, h2, h3⟩ := wwit2 (l := demoAll) (ls := go 0 62) (ls' := go 0 45) (fun s s' =>
    (decide (.returned 0 0 false [0, 1] 2 ∈ s.data.ad.wlog), (s.data.sd.st 1).status, (s.data.sd.st 2).status,
     decide (.returned 0 0 false [0, 1] 2 ∈ s'.data.ad.wlog), (s'.data.sd.st 2).status, (s'.data.sd.st 2).value, (s'.data.sd.st 2).isVoid,
     (s'.data.sd.st 2).exn))
    (b := (true, .ready, .notSet, true, .ready, some (.ids [1, 2]), false, none)) (by decide +kernel)
  simp only [Prod.mk.injEq, decide_eq_true_eq] at h3
  obtain ⟨a1, a2, a3, a4, a5, a6, a7, a8⟩ := h3
  exact ⟨s, s', h1, h2, a1, by rw [a2]; decide, a3, a4, a5, by rw [a6, a7]; rfl, a8⟩

set_option synthInstance.maxSize 1024 in
set_option synthInstance.maxHeartbeats 400000 in
/-- The hypotheses of `C38_empty` and `C39_empty` are met. -/
example : ∃ s : DWSt, WR (tableW demoAll) () 1 s ∧ .returned 0 1 false [] 5 ∈ s.data.ad.wlog ∧ .returned 0 2 true [] 6 ∈ s.data.ad.wlog := by
  obtain ⟨s, h1, h3⟩ := wwit (l := demoAll) (ls := go 0 144) (fun s =>
    (decide (.returned 0 1 false [] 5 ∈ s.data.ad.wlog), decide (.returned 0 2 true [] 6 ∈ s.data.ad.wlog)))
    (b := (true, true)) (by decide +kernel)
  simp only [Prod.mk.injEq, decide_eq_true_eq] at h3
  exact ⟨s, h1, h3⟩

set_option synthInstance.maxSize 1024 in
set_option synthInstance.maxHeartbeats 400000 in
/-- The hypotheses of `C38_complete` are met. -/
example : ∃ s : DWSt, WR (tableW demoAll) () 1 s ∧ .returned 0 0 false [0, 1] 2 ∈ s.data.ad.wlog ∧ ∀ i < [0, 1].length, i ∈ (s.data.ad.ctx 0).ended := by
  obtain ⟨s, h1, h3⟩ := wwit (l := demoAll) (ls := go 0 144) (fun s =>
    (decide (.returned 0 0 false [0, 1] 2 ∈ s.data.ad.wlog), (s.data.ad.ctx 0).ended)) (b := (true, [1, 0])) (by decide +kernel)
  simp only [Prod.mk.injEq, decide_eq_true_eq] at h3
  exact ⟨s, h1, h3.1, by rw [h3.2]; decide⟩

/-- Main makes two promises, calls when_any with their futures and sets the second one. -/
def demoAnyEnd : List (WAct Nat Nat) :=
  [.core .registerThis 2, .sync (.promNew 0 false) 3, .sync (.promNew 1 false) 4, .when false true [(some 0, false), (some 1, true)] 5,
   .sync (.promSet 1 (.val (.nat 8))) 6, .core .wait 7, .ret .unit]

set_option synthInstance.maxSize 1024 in
set_option synthInstance.maxHeartbeats 400000 in
/-- The hypotheses of `C39_complete` are met. -/
example : ∃ s : DWSt, WR (tableW demoAnyEnd) () 1 s ∧ .returned 0 0 true [0, 1] 2 ∈ s.data.ad.wlog ∧ 1 ∈ (s.data.ad.ctx 0).ended ∧ (s.data.ad.ctx 0).failed = [] := by
  obtain ⟨s, h1, h3⟩ := wwit (l := demoAnyEnd) (ls := go 0 60) (fun s =>
    (decide (.returned 0 0 true [0, 1] 2 ∈ s.data.ad.wlog), (s.data.ad.ctx 0).ended, (s.data.ad.ctx 0).failed)) (b := (true, [1], [])) (by decide +kernel)
  simp only [Prod.mk.injEq, decide_eq_true_eq] at h3
  exact ⟨s, h1, h3.1, by rw [h3.2.1]; decide, h3.2.2⟩

/-- The variadic versions: main makes a promise and sets it, makes a second one, calls when_all with both futures, when_any with both (the second
    one first), and sets the second promise. -/
def demoTup : List (WAct Nat Nat) :=
  [.core .registerThis 2, .sync (.promNew 0 false) 3, .sync (.promSet 0 (.val (.nat 7))) 4, .sync (.promNew 1 false) 5,
   .when true false [(some 0, false), (some 1, true)] 6, .when true true [(some 1, true), (some 0, true)] 7,
   .sync (.promSet 1 (.val (.nat 8))) 8, .ret .unit]

set_option synthInstance.maxSize 1024 in
set_option synthInstance.maxHeartbeats 400000 in
/-- The hypotheses of `C38_all`, `C39_any` and `C39_complete` are met by the variadic versions: when_any has made its result ready before it asks for the
    future, because the second input was ready when it attached to it. -/
example : ∃ s s' : DWSt, WR (tableW demoTup) () 1 s ∧ run (client (whenApp (tableW demoTup))) s (go 0 78) = some s' ∧
    (s'.data.ad.ctx 0).tup = true ∧ (s'.data.ad.ctx 1).tup = true ∧ s.data.ad.wlog = [.returned 0 0 false [0, 1] 2] ∧
    Holds (s.data.sd.st 5) (.val (.anyRes (some 1) [2, 1])) ∧ (s.data.sd.st 2).status = .notSet ∧
    .returned 0 1 true [1, 0] 5 ∈ s'.data.ad.wlog ∧ (s'.data.ad.ctx 1).ended = [1, 0] ∧ (s'.data.ad.ctx 1).failed = [] := by
  obtain ⟨s, s', h1, h2, h3⟩ := wwit2 (l := demoTup) (ls := go 0 110) (ls' := go 0 78) (fun s s' =>
    ((s'.data.ad.ctx 0).tup && (s'.data.ad.ctx 1).tup, decide (s.data.ad.wlog = [.returned 0 0 false [0, 1] 2]), (s.data.sd.st 5).status,
     (s.data.sd.st 5).value, (s.data.sd.st 5).isVoid, (s.data.sd.st 5).exn, (s.data.sd.st 2).status,
     decide (.returned 0 1 true [1, 0] 5 ∈ s'.data.ad.wlog) && (s'.data.ad.ctx 1).ended == [1, 0] && (s'.data.ad.ctx 1).failed == []))
    (b := (true, true, .ready, some (.anyRes (some 1) [2, 1]), false, none, .notSet, true)) (by decide +kernel)
  simp only [Prod.mk.injEq, decide_eq_true_eq, Bool.and_eq_true, beq_iff_eq] at h3
  obtain ⟨⟨a1, a2⟩, a3, a4, a5, a6, a7, a8, ⟨a9, a10⟩, a11⟩ := h3
  exact ⟨s, s', h1, h2, a1, a2, a3, ⟨a4, by rw [a5, a6]; rfl, a7⟩, a8, a9, a10, a11⟩

set_option synthInstance.maxSize 1024 in
set_option synthInstance.maxHeartbeats 400000 in
/-- The hypotheses of `C38_complete` are met by the variadic version. -/
example : ∃ s : DWSt, WR (tableW demoTup) () 1 s ∧ .returned 0 0 false [0, 1] 2 ∈ s.data.ad.wlog ∧ (∀ i < [0, 1].length, i ∈ (s.data.ad.ctx 0).ended) ∧
    (s.data.ad.ctx 0).tup = true ∧ Holds (s.data.sd.st 2) (.val (.ids [1, 2])) := by
  obtain ⟨s, h1, h3⟩ := wwit (l := demoTup) (ls := go 0 188) (fun s =>
    (decide (.returned 0 0 false [0, 1] 2 ∈ s.data.ad.wlog), (s.data.ad.ctx 0).ended, (s.data.ad.ctx 0).tup, (s.data.sd.st 2).status,
     (s.data.sd.st 2).value, (s.data.sd.st 2).isVoid, (s.data.sd.st 2).exn)) (b := (true, [0, 1], true, .ready, some (.ids [1, 2]), false, none)) (by decide +kernel)
  simp only [Prod.mk.injEq, decide_eq_true_eq] at h3
  obtain ⟨a1, a2, a3, a4, a5, a6, a7⟩ := h3
  exact ⟨s, h1, a1, by rw [a2]; decide, a3, a4, by rw [a5, a6]; rfl, a7⟩

/-- Main calls when_any for the futures of two promises, attaches a continuation (label 30, it calls `this_thread::wait()`) to the result
    and waits; thread 1 sets both promises. -/
def demoAny : List (WAct Nat Nat) :=
  [.core .registerThis 2, .sync (.promNew 0 false) 3, .sync (.promNew 1 false) 4, .core (.spawn 1 20) 5,
   .when false true [(some 0, false), (some 1, false)] 6, .sync (.futThen (some 2) 1 false true 30) 7, .core .wait 8, .ret .unit,
   .ret .unit, .ret .unit, .ret .unit, .ret .unit, .ret .unit, .ret .unit, .ret .unit, .ret .unit, .ret .unit, .ret .unit, .ret .unit,
   .sync (.promSet 0 (.val (.nat 7))) 21, .sync (.promSet 1 (.val (.nat 8))) 22, .ret .unit,
   .ret .unit, .ret .unit, .ret .unit, .ret .unit, .ret .unit, .ret .unit, .ret .unit, .core .wait 31]

def demoAnySched : List (Lbl Unit) := go 0 39 ++ go 1 33 ++ go 0 19

set_option synthInstance.maxSize 1024 in
set_option synthInstance.maxHeartbeats 400000 in
/-- The hypotheses of `C39_any` are met: the second input is ready, too, but the index designates the first. -/
example : ∃ s : DWSt, WR (tableW demoAny) () 1 s ∧ .returned 0 0 true [0, 1] 2 ∈ s.data.ad.wlog ∧
    Holds (s.data.sd.st 2) (.val (.anyRes (some 0) [1, 2])) := by
  obtain ⟨s, h1, h3⟩ := wwit (l := demoAny) (ls := demoAnySched) (fun s =>
    (decide (.returned 0 0 true [0, 1] 2 ∈ s.data.ad.wlog), (s.data.sd.st 2).status, (s.data.sd.st 2).value, (s.data.sd.st 2).isVoid,
     (s.data.sd.st 2).exn))
    (b := (true, .ready, some (.anyRes (some 0) [1, 2]), false, none)) (by decide +kernel)
  simp only [Prod.mk.injEq, decide_eq_true_eq] at h3
  obtain ⟨a1, a2, a3, a4, a5⟩ := h3
  exact ⟨s, h1, a1, a2, by rw [a3, a4]; rfl, a5⟩

set_option synthInstance.maxSize 1024 in
set_option synthInstance.maxHeartbeats 400000 in
/-- The hypotheses of `C40_partial` are met while another thread holds the mutex of a context. -/
example : ∃ s : DWSt, WR (tableW demoAny) () 1 s ∧ (∀ c g, .client (.app g) ∈ s.stk 1 → ¬ inSection c g) ∧ (∀ m, .client (.lkUn m) ∉ s.stk 1) ∧
    s.stk 1 = [.client (.app (.usr 22))] ∧ s.data.sd.lk (.user (pob 0)) = some 0 := by
  obtain ⟨s, h1, h3⟩ := wwit (l := demoAny) (ls := go 0 39 ++ go 1 32 ++ go 0 4) (fun s => (s.stk 1, s.data.sd.lk (.user (pob 0))))
    (b := ([.client (.app (.usr 22))], some 0)) (by decide +kernel)
  simp only [Prod.mk.injEq] at h3
  refine ⟨s, h1, ?_, ?_, h3⟩
  · intro c g hg
    rw [h3.1] at hg
    simp at hg
    subst hg
    exact fun h => h
  · intro m hm
    rw [h3.1] at hm
    simp at hm

set_option synthInstance.maxSize 1024 in
set_option synthInstance.maxHeartbeats 400000 in
/-- The claim does not hold: main runs the continuation of the when_any result, which calls `this_thread::wait()`; this runs the continuation of the
    second input, which waits for the mutex of the context - held by main itself.  Main stays there in every continuation of the execution. -/
theorem C40_deadlock : ∃ s : DWSt, WR (tableW demoAny) () 1 s ∧
    .client (.app (.usr 31)) ∈ s.stk 0 ∧ (∃ rest, s.stk 0 = .client (.lkIn (pob 0)) :: rest) ∧ s.data.sd.lk (.user (pob 0)) = some 0 ∧
    ∀ ls s', run (client (whenApp (tableW demoAny))) s ls = some s' → s'.stk 0 = s.stk 0 := by
  obtain ⟨s, h1, h0⟩ := Option.map_eq_some_iff.1 (show (wexec demoAny demoAnySched).map (fun s => ((s.stk 0).head?,
      decide (.client (.app (.usr 31)) ∈ s.stk 0), s.data.sd.lk (.user (pob 0)), (s.thr 0).exc, s.stk 1)) =
      some (some (.client (.lkIn (pob 0))), true, some 0, none, []) by decide +kernel)
  have hn : spawnLt 2 (client (whenApp (tableW demoAny))) (init { sd := {}, ad := { u := () } } (.app (.usr 1))) demoAnySched = true := by
    decide +kernel
  simp only [Prod.mk.injEq, decide_eq_true_eq] at h0
  obtain ⟨a1, a2, a3, a4, a5⟩ := h0
  have hr : WR (tableW demoAny) () 1 s := wexec_reach h1
  obtain ⟨rest, hst⟩ : ∃ rest, s.stk 0 = .client (.lkIn (pob 0)) :: rest := by
    cases hx : s.stk 0 with
    | nil => rw [hx] at a1; cases a1
    | cons x rest => rw [hx] at a1; simp at a1; exact ⟨rest, by rw [a1]⟩
  refine ⟨s, hr, a2, ⟨rest, hst⟩, a3, fun ls s' hs => ?_⟩
  rw [hst]
  refine stuck hr hst a4 a3 ?_ hs
  intro u hu
  by_cases h : u = 1
  · rw [h]; exact a5
  · have := spawnLt_stk (u := u) (FreeOK.init _ _) hn h1 (by omega) (by simp [demoAnySched, go]; omega)
    rw [this]
    simp [Core.init, St.stk, upd_ne _ _ hu]

end Itc
