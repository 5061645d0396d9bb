import Verif.Pool.Jobs

/-!
# Thread pool: facts about the events (proof infrastructure, no claims)
-/
namespace Itc
namespace Pool
open Core Sync
section
variable {α φ δ χ : Type} {U : PApp α φ δ χ} {u0 : δ} {f0 : φ} {s : PSt α φ δ}

section
variable {x : Imp α} {l : List (PEv α)} {i : Nat}

theorem JI.pending (h : JI x l i) {id : Nat} : Pending i id l ↔ ∃ j ∈ x.jobs, j.id = id ∧ j.call.isSome = true := by
  constructor
  · rintro ⟨h1, h2, h3⟩
    have hg : id ∉ goneIds i l := fun hg => (h.tk id hg).elim h2 h3
    obtain ⟨j, hj, rfl⟩ := h.mem.2 ⟨h1, hg⟩
    exact ⟨j, hj, rfl, (h.call j hj).2 h2⟩
  · rintro ⟨j, hj, rfl, hc⟩
    obtain ⟨h1, h2⟩ := h.mem.1 ⟨j, hj, rfl⟩
    exact ⟨h1, (h.call j hj).1 hc, fun h3 => h2 (h.cg _ h3)⟩

theorem JI.find (h : JI x l i) {j : Job α} (hj : j ∈ x.jobs) : findJob x.jobs j.id = some j := by
  cases hf : findJob x.jobs j.id with
  | none => have := List.find?_eq_none.1 hf j hj; simp at this
  | some j1 => obtain ⟨h2, h3⟩ := findJob_mem hf; rw [h.uniq h2 hj h3]

theorem find_none {jl : List (Job α)} {id : Nat} (h : findJob jl id = none) {j : Job α} (hj : j ∈ jl) : j.id ≠ id := by
  have := List.find?_eq_none.1 h j hj
  simpa using this

theorem JI.hdl (h : JI x l i) {id : Nat} {g : Grp} (hp : Pending i id l) (hg : curGrp i id l = some g) : ⟨id, g⟩ ∈ x.q := by
  obtain ⟨j, hj, rfl, hc⟩ := h.pending.1 hp
  have := h.cur j hj
  rw [hg] at this
  cases this
  exact h.pend j hj hc
end

theorem hist (hr : PR U u0 f0 s) : Hst PEv.fact s.data.ad.plog := by
  refine data_ind (fun ad => Hst PEv.fact ad.plog) Hst.nil ?_ hr
  intro s t ch f rest ad' a hr q he hst hA
  have ty := tyF hr (t := t) (f := f) (by rw [hst]; simp)
  have jI := ji hr
  have tI := tyI hr
  cases pool_pc hA with
  | usr g ch u wa hU => exact q
  | ck x d' id c hP =>
    show Hst PEv.fact d'.plog
    cases hP with
    | idle he =>
      refine q.cons ?_
      intro id' g' hp hg
      have := (jI x.i).hdl hp hg
      by_contra hl
      have : (⟨id', g'⟩ : Hd) ∈ elig x.L (s.data.ad.imp x.i).q := List.mem_filter.2 ⟨this, by simpa using hl⟩
      rw [he] at this; simp at this
    | skip k h id ht hk hn =>
      refine q.cons ?_
      obtain ⟨h1, h2⟩ := top_ge ht hk
      refine ⟨(jI x.i).q h (List.mem_of_getElem? hk), h1, ?_⟩
      intro hp
      obtain ⟨j, hj, hid, hc⟩ := (jI x.i).pending.1 hp
      rw [← hid] at hn ⊢
      refine ⟨j.g, (jI x.i).cur j hj, ?_⟩
      rcases hn j ((jI x.i).find hj) with h | h
      · omega
      · rw [h] at hc; cases hc
    | took k h j0 c ht hk hj hL hc =>
      refine q.cons ?_
      obtain ⟨h1, h2⟩ := top_ge ht hk
      obtain ⟨m1, m2⟩ := findJob_mem hj
      obtain ⟨c', ⟨t', g', h3⟩, -, -, h4⟩ := tI.jobs m1
      obtain rfl := h4 c hc
      refine ⟨⟨t', g', h3⟩, (jI x.i).pending.2 ⟨j0, m1, rfl, by simp [hc]⟩, m2.symm, m2 ▸ (jI x.i).q h (List.mem_of_getElem? hk),
        ⟨j0.g, (jI x.i).cur j0 m1, hL⟩, h1, ?_⟩
      intro id' g' hp hg hl
      exact h2 _ ((jI x.i).hdl hp hg) hl
  | ps f d' a hf hb hP =>
    cases hP <;> (try subst_vars) <;> first | exact q | exact q.cons trivial | skip
    case ajIn i h g c =>
      refine q.cons ⟨ty.2.1, ty.2.2, (jI i).free, fun hh => Nat.lt_irrefl _ ((jI i).ids _ hh).2⟩
    case finSched i h u id r =>
      refine q.cons ?_
      obtain ⟨c, ⟨t, g, h1⟩, h2⟩ := ty.2
      exact ⟨t, c, g, h1, h2⟩
    case cpBody i id g j0 c hj hc hg =>
      obtain ⟨m1, m2⟩ := findJob_mem hj
      refine q.cons ⟨(jI i).pending.2 ⟨j0, m1, m2, by simp [hc]⟩, ?_⟩
      rw [← m2, (jI i).cur j0 m1]
      exact fun hh => hg (Option.some.inj hh)
    case stNo i id hn =>
      refine q.cons ?_
      intro hp
      obtain ⟨j, hj, rfl, hc⟩ := (jI i).pending.1 hp
      have := hn j ((jI i).find hj)
      rw [this] at hc; cases hc
    case stop i id j0 c hj hc =>
      obtain ⟨m1, m2⟩ := findJob_mem hj
      obtain ⟨c', ⟨t', g', h3⟩, -, -, h4⟩ := tI.jobs m1
      obtain rfl := h4 c hc
      exact q.cons ⟨⟨t', g', m2 ▸ h3⟩, (jI i).pending.2 ⟨j0, m1, m2, by simp [hc]⟩⟩
    case clNo i id c hn => exact q.cons (ty.2 c rfl)
    case clJob i id c j0 hj hc => exact q.cons (ty.2 c rfl)
    case clDrop i id c j0 c' hj hc => exact q.cons (ty.2 c rfl)
    case caIn i K =>
      show Hst PEv.fact (dropEvs _ i (s.data.ad.imp i).jobs ++ s.data.ad.plog)
      have key : ∀ (jl : List (Job α)) (x : Imp α) (l : List (PEv α)), x.jobs = jl → JI x l i → Hst PEv.fact l →
          (∀ j ∈ x.jobs, ∀ c, j.call = some c → ∃ t g, .sched t i j.id c g ∈ l) → Hst PEv.fact (dropEvs (s.view t).tid i jl ++ l) := by
        intro jl
        induction jl using List.reverseRecOn with
        | nil => intro x l _ _ h _; exact h
        | append_singleton a j ih =>
          intro x l hj h hh hs
          rw [dropEvs_snoc, List.append_assoc]
          have hjm : j ∈ x.jobs := by rw [hj]; simp
          have h1 := h.drop1 (s.view t).tid j hjm
          have hn := h.nodJ
          rw [hj] at hn
          refine ih { x with jobs := erase x.jobs j.id } _ (by rw [hj]; exact erase_last hn) h1 ?_ ?_
          · refine hh.cons ?_
            cases hc : j.call with
            | some c => exact ⟨hs j hjm c hc, h.pending.2 ⟨j, hjm, rfl, by simp [hc]⟩⟩
            | none =>
              show j.id ∈ takenIds i l
              by_contra hh
              have := (h.call j hjm).2 hh
              rw [hc] at this; cases this
          · intro j' hj' c hc
            obtain ⟨t, g, h2⟩ := hs j' (erase_mem.1 hj').1 c hc
            exact ⟨t, g, by simp [h2]⟩
      refine key _ _ _ rfl (jI i) q ?_
      intro j hj c hc
      obtain ⟨c', ⟨t', g', h3⟩, -, -, h4⟩ := tI.jobs hj
      obtain rfl := h4 c hc
      exact ⟨t', g', h3⟩
    case wtNo i id hn =>
      refine q.cons ?_
      by_contra hh
      simp only [PEv.fact, not_or, not_not] at hh
      obtain ⟨j, hj, hid⟩ := (jI i).mem.2 hh
      exact find_none hn hj hid
    case wtBody i id j0 hj =>
      obtain ⟨m1, m2⟩ := findJob_mem hj
      obtain ⟨c', ⟨t', g', h3⟩, h4, -, -⟩ := tI.jobs m1
      exact q.cons ⟨((jI i).mem.1 ⟨j0, m1, m2⟩).2, t', c', g', m2 ▸ h3, h4.symm⟩
    case wtEnd i k dn =>
      refine Hst.cons ?_ trivial
      cases dn with
      | nil => exact q
      | cons p dn => exact q.cons trivial
    case wtGo i k dn p l =>
      cases dn with
      | nil => exact q
      | cons p dn => exact q.cons trivial
    case waBody i =>
      refine q.cons ⟨?_, ?_⟩
      · rw [← (jI i).jobs, List.map_map]; rfl
      · intro x hx
        obtain ⟨j, hj, rfl⟩ := List.mem_map.1 hx
        obtain ⟨c', ⟨t', g', h3⟩, h4, -, -⟩ := tI.jobs hj
        exact ⟨t', c', g', h3, h4.symm⟩
    case cnBody i =>
      refine q.cons ?_
      show (s.data.ad.imp i).jobs.length = _
      have := congrArg List.length (jI i).jobs
      simpa using this

theorem took_schd (hr : PR U u0 f0 s) {t i L id : Nat} {c : Call α} {h : Hd} (hm : .took t i L id c h ∈ s.data.ad.plog) : Schd s.data.ad i id c := by
  obtain ⟨l1, l2, h1, ⟨t', g, h2⟩, -⟩ := (hist hr).mem hm
  exact ⟨t', g, by rw [h1]; simp [h2]⟩

end
end Pool
end Itc
