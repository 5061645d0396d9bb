import Verif.Pool.Ty
import Mathlib.Data.List.Nodup
import Mathlib.Data.List.Induction

/-!
# Thread pool: jobs, handles and the log (proof infrastructure, no claims)
-/
namespace Itc
namespace Pool
open Core Sync
section
variable {α φ δ χ : Type}

/-- The members of pool `i` and the log. -/
structure JI (x : Imp α) (l : List (PEv α)) (i : Nat) : Prop where
  free : 1 ≤ x.free
  ids : ∀ id ∈ schedIds i l, 1 ≤ id ∧ id < x.free
  nod : (schedIds i l).Nodup
  jobs : x.jobs.map (·.id) = ((schedIds i l).filter (· ∉ goneIds i l)).reverse
  cur : ∀ j ∈ x.jobs, curGrp i j.id l = some j.g
  call : ∀ j ∈ x.jobs, j.call.isSome = true ↔ j.id ∉ takenIds i l
  cuts : (takenIds i l ++ cutIds i l).Nodup
  tk : ∀ id ∈ goneIds i l, id ∈ takenIds i l ∨ id ∈ cutIds i l
  tks : ∀ id ∈ takenIds i l, id ∈ schedIds i l
  cg : ∀ id ∈ cutIds i l, id ∈ goneIds i l
  gs : ∀ id ∈ goneIds i l, id ∈ schedIds i l
  q : ∀ h ∈ x.q, hadGrp i h.id h.g l
  pend : ∀ j ∈ x.jobs, j.call.isSome = true → ⟨j.id, j.g⟩ ∈ x.q

/-- Events that do not concern the jobs of pool `i`. -/
def quiet (i : Nat) : PEv α → Prop
  | .sched _ j _ _ _ => j ≠ i
  | .changed _ j _ _ => j ≠ i
  | .took _ j _ _ _ _ => j ≠ i
  | .stopped _ j _ _ => j ≠ i
  | .discarded _ j _ _ => j ≠ i
  | .forgot _ j _ => j ≠ i
  | .done _ j _ _ => j ≠ i
  | _ => True

theorem hadGrp.cons {i id : Nat} {g : Grp} {l : List (PEv α)} (h : hadGrp i id g l) (e : PEv α) : hadGrp i id g (e :: l) := by
  rcases h with ⟨t, c, h⟩ | ⟨t, h⟩
  · exact .inl ⟨t, c, List.mem_cons_of_mem _ h⟩
  · exact .inr ⟨t, List.mem_cons_of_mem _ h⟩

section quiet
variable {i : Nat} {e : PEv α} {l : List (PEv α)} (he : quiet i e)
include he
theorem schedIds_q : schedIds i (e :: l) = schedIds i l := by
  cases e <;> simp only [schedIds, List.filterMap_cons, PEv.schedId] <;> simp only [quiet] at he <;> simp [he]
theorem takenIds_q : takenIds i (e :: l) = takenIds i l := by
  cases e <;> simp only [takenIds, List.filterMap_cons, PEv.takenId] <;> simp only [quiet] at he <;> simp [he]
theorem cutIds_q : cutIds i (e :: l) = cutIds i l := by
  cases e <;> simp only [cutIds, List.filterMap_cons, PEv.cutId] <;> simp only [quiet] at he <;> simp [he]
theorem goneIds_q : goneIds i (e :: l) = goneIds i l := by
  cases e <;> simp only [goneIds, List.filterMap_cons, PEv.goneId] <;> simp only [quiet] at he <;> simp [he]
theorem curGrp_q (id : Nat) : curGrp i id (e :: l) = curGrp i id l := by
  cases e <;> simp only [curGrp] <;> simp only [quiet] at he <;> simp [he]

theorem JI.quiet {x : Imp α} (h : JI x l i) : JI x (e :: l) i where
  free := h.free
  ids := by rw [schedIds_q he]; exact h.ids
  nod := by rw [schedIds_q he]; exact h.nod
  jobs := by rw [schedIds_q he, goneIds_q he]; exact h.jobs
  cur := by intro j hj; rw [curGrp_q he]; exact h.cur j hj
  call := by rw [takenIds_q he]; exact h.call
  cuts := by rw [takenIds_q he, cutIds_q he]; exact h.cuts
  tk := by rw [takenIds_q he, cutIds_q he, goneIds_q he]; exact h.tk
  tks := by rw [takenIds_q he, schedIds_q he]; exact h.tks
  cg := by rw [cutIds_q he, goneIds_q he]; exact h.cg
  gs := by rw [schedIds_q he, goneIds_q he]; exact h.gs
  q x hx := (h.q x hx).cons e
  pend := h.pend
end quiet

section
variable {x : Imp α} {l : List (PEv α)} {i : Nat}

theorem hadGrp.mem {id : Nat} {g : Grp} (h : JI x l i) (hg : hadGrp i id g l) (hc : ∀ t, .changed t i id g ∈ l → id ∈ schedIds i l) : id ∈ schedIds i l := by
  rcases hg with ⟨t, c, h1⟩ | ⟨t, h1⟩
  · exact List.mem_filterMap.2 ⟨_, h1, by simp [PEv.schedId]⟩
  · exact hc t h1

theorem JI.mem (h : JI x l i) {id : Nat} : (∃ j ∈ x.jobs, j.id = id) ↔ id ∈ schedIds i l ∧ id ∉ goneIds i l := by
  have : (∃ j ∈ x.jobs, j.id = id) ↔ id ∈ x.jobs.map (·.id) := by simp
  rw [this, h.jobs]; simp

theorem JI.nodJ (h : JI x l i) : (x.jobs.map (·.id)).Nodup := by
  rw [h.jobs, List.nodup_reverse]
  exact h.nod.filter _

theorem JI.uniq (h : JI x l i) {j j' : Job α} (h1 : j ∈ x.jobs) (h2 : j' ∈ x.jobs) (he : j.id = j'.id) : j = j' :=
  List.inj_on_of_nodup_map h.nodJ h1 h2 he

theorem JI.wk (h : JI x l i) (w : List Wk) : JI { x with wk := w } l i := ⟨h.free, h.ids, h.nod, h.jobs, h.cur, h.call, h.cuts, h.tk, h.tks, h.cg, h.gs, h.q, h.pend⟩

theorem map_erase (jl : List (Job α)) (id : Nat) : (erase jl id).map (·.id) = (jl.map (·.id)).filter (· ≠ id) := by
  rw [List.filter_map]; rfl

theorem map_mod (jl : List (Job α)) (id : Nat) (f : Job α → Job α) (hf : ∀ j, (f j).id = j.id) : (modJob jl id f).map (·.id) = jl.map (·.id) := by
  simp only [modJob, List.map_map]
  apply List.map_congr_left
  intro j _
  simp only [Function.comp]
  split
  · exact hf j
  · rfl

/-- schedule -/
theorem JI.sched (h : JI x l i) (t : Nat) (g : Grp) (c : Call α) :
    JI { x with free := x.free + 1, jobs := x.jobs ++ [⟨x.free, g, some c, c.p, c.u⟩], q := x.q ++ [⟨x.free, g⟩] } (.sched t i x.free c g :: l) i := by
  have e1 : schedIds i (.sched t i x.free c g :: l) = x.free :: schedIds i l := by simp [schedIds, List.filterMap_cons, PEv.schedId]
  have e2 : takenIds i (.sched t i x.free c g :: l) = takenIds i l := by simp [takenIds, List.filterMap_cons, PEv.takenId]
  have e3 : cutIds i (.sched t i x.free c g :: l) = cutIds i l := by simp [cutIds, List.filterMap_cons, PEv.cutId]
  have e4 : goneIds i (.sched t i x.free c g :: l) = goneIds i l := by simp [goneIds, List.filterMap_cons, PEv.goneId]
  have hn : x.free ∉ schedIds i l := fun hh => Nat.lt_irrefl _ (h.ids _ hh).2
  have hng : x.free ∉ goneIds i l := fun hh => hn (h.gs _ hh)
  have old : ∀ j ∈ x.jobs, j.id ≠ x.free := fun j hj hh => hn (hh ▸ (h.mem.1 ⟨j, hj, rfl⟩).1)
  refine ⟨Nat.le_succ_of_le h.free, ?_, ?_, ?_, ?_, ?_, ?_, ?_, ?_, ?_, ?_, ?_, ?_⟩ <;> simp only [e1, e2, e3, e4]
  · intro id hid
    rcases List.mem_cons.1 hid with rfl | hid
    · exact ⟨h.free, Nat.lt_succ_self _⟩
    · have := h.ids id hid; exact ⟨this.1, Nat.lt_succ_of_lt this.2⟩
  · exact List.nodup_cons.2 ⟨hn, h.nod⟩
  · rw [List.filter_cons_of_pos (by simpa using hng), List.reverse_cons, ← h.jobs, List.map_append]; rfl
  · intro j hj
    rcases List.mem_append.1 hj with hj | hj
    · simp only [curGrp, true_and]
      rw [if_neg (Ne.symm (old j hj))]; exact h.cur j hj
    · simp at hj; subst hj; simp [curGrp]
  · intro j hj
    rcases List.mem_append.1 hj with hj | hj
    · exact h.call j hj
    · simp at hj; subst hj; simp only [Option.isSome_some, true_iff]; exact fun hh => hn (h.tks _ hh)
  · exact h.cuts
  · exact h.tk
  · intro id hid; exact List.mem_cons_of_mem _ (h.tks id hid)
  · exact h.cg
  · intro id hid; exact List.mem_cons_of_mem _ (h.gs id hid)
  · intro y hy
    rcases List.mem_append.1 hy with hy | hy
    · exact (h.q y hy).cons _
    · simp at hy; subst hy; exact .inl ⟨t, c, by simp⟩
  · intro j hj hc
    rcases List.mem_append.1 hj with hj | hj
    · exact List.mem_append_left _ (h.pend j hj hc)
    · simp at hj; subst hj; simp

/-- change_priority -/
theorem JI.change (h : JI x l i) (t id : Nat) (g : Grp) (j0 : Job α) (hj0 : j0 ∈ x.jobs) (hid : j0.id = id) :
    JI { x with jobs := modJob x.jobs id fun j => { j with g := g }, q := x.q ++ [⟨j0.id, g⟩] } (.changed t i id g :: l) i := by
  have e1 : schedIds i (.changed t i id g :: l) = schedIds i l := by simp [schedIds, List.filterMap_cons, PEv.schedId]
  have e2 : takenIds i (.changed t i id g :: l) = takenIds i l := by simp [takenIds, List.filterMap_cons, PEv.takenId]
  have e3 : cutIds i (.changed t i id g :: l) = cutIds i l := by simp [cutIds, List.filterMap_cons, PEv.cutId]
  have e4 : goneIds i (.changed t i id g :: l) = goneIds i l := by simp [goneIds, List.filterMap_cons, PEv.goneId]
  refine ⟨h.free, ?_, ?_, ?_, ?_, ?_, ?_, ?_, ?_, ?_, ?_, ?_, ?_⟩ <;> simp only [e1, e2, e3, e4]
  · exact h.ids
  · exact h.nod
  · rw [map_mod _ _ (fun j => { j with g := g }) (fun _ => rfl)]; exact h.jobs
  · intro j hj
    obtain ⟨j', h1, h2⟩ := List.mem_map.1 hj
    split at h2
    · subst h2; simp [curGrp, ‹j'.id = id›]
    · subst h2; simp [curGrp, Ne.symm ‹¬ j'.id = id›]; exact h.cur j' h1
  · intro j hj
    obtain ⟨j', h1, rfl | ⟨-, rfl⟩⟩ := modJob_mem hj
    · exact h.call _ h1
    · exact h.call j' h1
  · exact h.cuts
  · exact h.tk
  · exact h.tks
  · exact h.cg
  · exact h.gs
  · intro y hy
    rcases List.mem_append.1 hy with hy | hy
    · exact (h.q y hy).cons _
    · simp at hy; subst hy; exact .inr ⟨t, by simp [hid]⟩
  · intro j hj hc
    obtain ⟨j', h1, h2⟩ := List.mem_map.1 hj
    split at h2
    · subst h2; simp [hid, ‹j'.id = id›]
    · subst h2; exact List.mem_append_left _ (h.pend _ h1 hc)

theorem filter_gone (id : Nat) (l m : List Nat) : l.filter (· ∉ id :: m) = (l.filter (· ∉ m)).filter (· ≠ id) := by
  rw [List.filter_filter]
  apply List.filter_congr
  intro y _
  simp only [List.mem_cons, not_or, Bool.decide_and]

/-- A job that is pending leaves `jobs_`. -/
theorem JI.stop (h : JI x l i) (t id : Nat) (c : Call α) (j0 : Job α) (hj0 : j0 ∈ x.jobs) (hid : j0.id = id) (hc : j0.call.isSome = true) :
    JI { x with jobs := erase x.jobs id } (.stopped t i id c :: l) i := by
  have e1 : schedIds i (.stopped t i id c :: l) = schedIds i l := by simp [schedIds, List.filterMap_cons, PEv.schedId]
  have e2 : takenIds i (.stopped t i id c :: l) = takenIds i l := by simp [takenIds, List.filterMap_cons, PEv.takenId]
  have e3 : cutIds i (.stopped t i id c :: l) = id :: cutIds i l := by simp [cutIds, List.filterMap_cons, PEv.cutId]
  have e4 : goneIds i (.stopped t i id c :: l) = id :: goneIds i l := by simp [goneIds, List.filterMap_cons, PEv.goneId]
  have hm := h.mem.1 ⟨j0, hj0, hid⟩
  refine ⟨h.free, ?_, ?_, ?_, ?_, ?_, ?_, ?_, ?_, ?_, ?_, ?_, ?_⟩ <;> simp only [e1, e2, e3, e4]
  · exact h.ids
  · exact h.nod
  · rw [map_erase, h.jobs, filter_gone, List.filter_reverse]
  · intro j hj; simp only [curGrp]; exact h.cur j (erase_mem.1 hj).1
  · intro j hj; exact h.call j (erase_mem.1 hj).1
  · rw [List.nodup_append_comm, List.cons_append, List.nodup_cons, List.nodup_append_comm]
    refine ⟨?_, h.cuts⟩
    rw [List.mem_append, not_or]
    exact ⟨fun hh => hm.2 (h.cg _ hh), hid ▸ (h.call _ hj0).1 hc⟩
  · intro y hy
    rcases List.mem_cons.1 hy with rfl | hy
    · simp
    · rcases h.tk y hy with hy | hy <;> simp [hy]
  · exact h.tks
  · intro y hy
    rcases List.mem_cons.1 hy with rfl | hy
    · simp
    · simp [h.cg y hy]
  · intro y hy
    rcases List.mem_cons.1 hy with rfl | hy
    · exact hm.1
    · exact h.gs y hy
  · intro y hy; exact (h.q y hy).cons _
  · intro j hj; exact h.pend j (erase_mem.1 hj).1

/-- The worker clears a job. -/
theorem JI.done (h : JI x l i) (t id : Nat) (e : PEv α) (he : (∃ c, e = .done t i id c) ∨ e = .forgot t i id) (hid : id ∈ takenIds i l) :
    JI { x with jobs := erase x.jobs id } (e :: l) i := by
  have e1 : schedIds i (e :: l) = schedIds i l := by rcases he with ⟨c, rfl⟩ | rfl <;> simp [schedIds, List.filterMap_cons, PEv.schedId]
  have e2 : takenIds i (e :: l) = takenIds i l := by rcases he with ⟨c, rfl⟩ | rfl <;> simp [takenIds, List.filterMap_cons, PEv.takenId]
  have e3 : cutIds i (e :: l) = cutIds i l := by rcases he with ⟨c, rfl⟩ | rfl <;> simp [cutIds, List.filterMap_cons, PEv.cutId]
  have e4 : goneIds i (e :: l) = id :: goneIds i l := by rcases he with ⟨c, rfl⟩ | rfl <;> simp [goneIds, List.filterMap_cons, PEv.goneId]
  refine ⟨h.free, ?_, ?_, ?_, ?_, ?_, ?_, ?_, ?_, ?_, ?_, ?_, ?_⟩ <;> simp only [e1, e2, e3, e4]
  · exact h.ids
  · exact h.nod
  · rw [map_erase, h.jobs, filter_gone, List.filter_reverse]
  · intro j hj; rcases he with ⟨c, rfl⟩ | rfl <;> (simp only [curGrp]; exact h.cur j (erase_mem.1 hj).1)
  · intro j hj; exact h.call j (erase_mem.1 hj).1
  · exact h.cuts
  · intro y hy
    rcases List.mem_cons.1 hy with rfl | hy
    · exact .inl hid
    · exact h.tk y hy
  · exact h.tks
  · intro y hy; exact List.mem_cons_of_mem _ (h.cg y hy)
  · intro y hy
    rcases List.mem_cons.1 hy with rfl | hy
    · exact h.tks _ hid
    · exact h.gs y hy
  · intro y hy; exact (h.q y hy).cons _
  · intro j hj; exact h.pend j (erase_mem.1 hj).1

theorem erase_none {jl : List (Job α)} {id : Nat} (h : findJob jl id = none) : erase jl id = jl := by
  unfold erase
  rw [List.filter_eq_self]
  intro j hj
  have := List.find?_eq_none.1 h j hj
  simpa using this

/-- One job after the other leaves `jobs_`. -/
theorem JI.drop1 (h : JI x l i) (t : Nat) (j0 : Job α) (hm0 : j0 ∈ x.jobs) :
    JI { x with jobs := erase x.jobs j0.id } ((match j0.call with | some c => PEv.discarded t i j0.id c | none => PEv.forgot t i j0.id) :: l) i := by
  cases hc : j0.call with
  | some c =>
    have := h.stop t j0.id c j0 hm0 rfl (by simp [hc])
    refine ⟨this.free, this.ids, this.nod, this.jobs, this.cur, this.call, this.cuts, this.tk, this.tks, this.cg, this.gs, ?_, this.pend⟩
    intro y hy; exact (h.q y hy).cons _
  | none =>
    have hid : j0.id ∈ takenIds i l := by
      by_contra hh
      have := (h.call j0 hm0).2 hh
      rw [hc] at this; cases this
    exact h.done t j0.id _ (.inr rfl) hid

theorem dropEvs_snoc (t i : Nat) : ∀ (a : List (Job α)) (j : Job α), dropEvs t i (a ++ [j]) =
    dropEvs t i a ++ [match j.call with | some c => PEv.discarded t i j.id c | none => PEv.forgot t i j.id]
  | [], j => rfl
  | x :: a, j => by simp only [List.cons_append, dropEvs, dropEvs_snoc t i a j]

theorem erase_last {a : List (Job α)} {j : Job α} (hn : ((a ++ [j]).map (·.id)).Nodup) : erase (a ++ [j]) j.id = a := by
  unfold erase
  rw [List.filter_append, List.filter_cons_of_neg (by simp), List.filter_eq_self.2]
  · simp
  · intro y hy
    rw [List.map_append, List.nodup_append] at hn
    have := hn.2.2 y.id (List.mem_map.2 ⟨y, hy, rfl⟩) j.id (by simp)
    simpa using this

/-- clear_all clears `jobs_`. -/
theorem JI.drop (t : Nat) : ∀ (jl : List (Job α)) (x : Imp α) (l : List (PEv α)), x.jobs = jl → JI x l i → JI { x with jobs := [] } (dropEvs t i jl ++ l) i := by
  intro jl
  induction jl using List.reverseRecOn with
  | nil => intro x l hj h; have : ({ x with jobs := [] } : Imp α) = x := by rw [← hj]
           rw [this]; exact h
  | append_singleton a j ih =>
    intro x l hj h
    rw [dropEvs_snoc, List.append_assoc]
    have h1 := h.drop1 t j (by rw [hj]; simp)
    have hn := h.nodJ
    rw [hj] at hn
    exact ih { x with jobs := erase x.jobs j.id } _ (by rw [hj]; exact erase_last hn) h1

/-- check_jobs drops a handle that is not taken. -/
theorem JI.skip (h : JI x l i) {k : Nat} {y : Hd} (hk : x.q[k]? = some y) (hn : ∀ j ∈ x.jobs, j.call.isSome = true → (⟨j.id, j.g⟩ : Hd) ≠ y) :
    JI { x with q := x.q.eraseIdx k } l i where
  free := h.free
  ids := h.ids
  nod := h.nod
  jobs := h.jobs
  cur := h.cur
  call := h.call
  cuts := h.cuts
  tk := h.tk
  tks := h.tks
  cg := h.cg
  gs := h.gs
  q z hz := h.q z (List.mem_of_mem_eraseIdx hz)
  pend j hj hc := by
    have h1 := h.pend j hj hc
    refine List.mem_eraseIdx_iff_getElem?.2 ?_
    obtain ⟨n, hn1⟩ := List.getElem?_of_mem h1
    refine ⟨n, ?_, hn1⟩
    rintro rfl
    rw [hn1] at hk
    exact hn j hj hc (Option.some.inj hk)

/-- check_jobs takes the callable of a job. -/
theorem JI.took (h : JI x l i) (t L : Nat) {k : Nat} {y : Hd} (hk : x.q[k]? = some y) (j0 : Job α) (hj0 : j0 ∈ x.jobs) (hy : j0.id = y.id) (c : Call α) (hc : j0.call.isSome = true) :
    JI { x with q := x.q.eraseIdx k, jobs := modJob x.jobs j0.id fun j => { j with call := none } } (.took t i L j0.id c y :: l) i := by
  have e1 : schedIds i (.took t i L j0.id c y :: l) = schedIds i l := by simp [schedIds, List.filterMap_cons, PEv.schedId]
  have e2 : takenIds i (.took t i L j0.id c y :: l) = j0.id :: takenIds i l := by simp [takenIds, PEv.takenId]
  have e3 : cutIds i (.took t i L j0.id c y :: l) = cutIds i l := by simp [cutIds, List.filterMap_cons, PEv.cutId]
  have e4 : goneIds i (.took t i L j0.id c y :: l) = goneIds i l := by simp [goneIds, List.filterMap_cons, PEv.goneId]
  have hm := h.mem.1 ⟨j0, hj0, rfl⟩
  refine ⟨h.free, ?_, ?_, ?_, ?_, ?_, ?_, ?_, ?_, ?_, ?_, ?_, ?_⟩ <;> simp only [e1, e2, e3, e4]
  · exact h.ids
  · exact h.nod
  · rw [map_mod _ _ (fun j => { j with call := none }) (fun _ => rfl)]; exact h.jobs
  · intro j hj
    simp only [curGrp]
    obtain ⟨j', h1, rfl | ⟨-, rfl⟩⟩ := modJob_mem hj
    · exact h.cur _ h1
    · exact h.cur j' h1
  · intro j hj
    obtain ⟨j', h1, h2⟩ := List.mem_map.1 hj
    split at h2
    · rename_i h3; subst h2; simp [h3]
    · rename_i h3; subst h2; simp only [List.mem_cons, h3, false_or]; exact h.call j' h1
  · rw [List.cons_append, List.nodup_cons]
    refine ⟨?_, h.cuts⟩
    rw [List.mem_append, not_or]
    exact ⟨(h.call _ hj0).1 hc, fun hh => hm.2 (h.cg _ hh)⟩
  · intro z hz
    rcases h.tk z hz with hz | hz <;> simp [hz]
  · intro z hz
    rcases List.mem_cons.1 hz with rfl | hz
    · exact hm.1
    · exact h.tks z hz
  · exact h.cg
  · exact h.gs
  · intro z hz; exact (h.q z (List.mem_of_mem_eraseIdx hz)).cons _
  · intro j hj hc'
    obtain ⟨j', h1, h2⟩ := List.mem_map.1 hj
    split at h2
    · subst h2; cases hc'
    · rename_i h3
      subst h2
      refine List.mem_eraseIdx_iff_getElem?.2 ?_
      obtain ⟨n, hn1⟩ := List.getElem?_of_mem (h.pend _ h1 hc')
      refine ⟨n, ?_, hn1⟩
      rintro rfl
      rw [hn1] at hk
      have := Option.some.inj hk
      rw [← this] at hy
      exact h3 hy.symm

end
end
end Pool
end Itc
