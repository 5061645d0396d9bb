import Verif.Core.Log
import Verif.Core.Demo

/-!
# C01, C02, C03: ids and the registry

All statements are about the event log of an arbitrary execution of an arbitrary client (any number of threads, any
schedule).  The log is newest-first: `log = pre ++ e :: l` says that event `e` happened when the log was `l`.
-/
namespace Itc
open Core
section
variable {τ φ δ χ : Type} {C : Client τ φ δ χ} {d : δ} {f : φ} {s : St τ φ δ}

/-- **C01.** Over the whole execution no id is handed out twice, none is `invalid_id()`, and at no time have two
    native threads the same id. -/
theorem C01_ids_unique (h : Reach C d f s) :
    (allRegs s.log).Nodup ∧ 0 ∉ allRegs s.log ∧
    ∀ n m id, regOf n s.log = some id → regOf m s.log = some id → n = m := by
  have hw := WF.reach h
  have hl := LInv.reach h
  refine ⟨?_, ?_, ?_⟩
  · have := hl.hist
    generalize s.log = log at this
    induction log with
    | nil => simp [allRegs, extract]
    | cons e l ih =>
      have h1 := ih this.2
      have h2 := this.1
      cases e <;> simp only [allRegs, extract, Option.toList, List.append_nil] <;> try exact h1
      case registered c id n =>
        refine List.nodup_append.2 ⟨h1, by simp, ?_⟩
        simp only [List.mem_singleton]
        rintro a ha b rfl rfl
        exact h2.2.1 ha
  · have := hl.hist
    generalize s.log = log at this
    induction log with
    | nil => simp [allRegs, extract]
    | cons e l ih =>
      have h1 := ih this.2
      have h2 := this.1
      cases e <;> simp only [allRegs, extract, Option.toList, List.append_nil] <;> try exact h1
      case registered c id n =>
        simp only [List.mem_append, List.mem_singleton, not_or]
        exact ⟨h1, fun h0 => h2.1 h0.symm⟩
  · intro n m id hn hm
    rw [hl.regOf, hw.idm] at hn hm
    obtain ⟨c, hc, rfl⟩ := hn
    obtain ⟨c', hc', rfl⟩ := hm
    have h1 := hw.mem _ _ hc
    have h2 := hw.mem _ _ hc'
    rw [hw.inj c c' h1.1 h2.1 (h1.2.1.trans h2.2.1.symm)]

/-- C01, the returned value: what a registering call returns is an id that was handed out. -/
theorem C01_returned (h : Reach C d f s) {pre l : List (Ev τ)} {t n : Nat} {v : Val}
    (hlog : s.log = pre ++ .ret t (.register n) v :: l) : ∃ id, v = .nat id ∧ id ∈ allRegs l ∧ id ≠ 0 := by
  have hl := (LInv.reach h).hist
  obtain ⟨id, rfl, hm⟩ := hl.split hlog
  obtain ⟨l1, l2, rfl⟩ := List.append_of_mem hm
  have h2 : HP (.regRes t n id) l2 := hl.split (pre := pre ++ .ret t (.register n) (.nat id) :: l1) (by simp [hlog])
  have key : ∀ (l : List (Ev τ)) (id n : Nat), regOf n l = some id → id ∈ allRegs l := by
    intro l
    induction l with
    | nil => intro id n h; simp [regOf] at h
    | cons e l ih =>
      intro id n h
      cases e <;> simp only [regOf, allRegs, extract, Option.toList, List.append_nil] at h ⊢ <;> try exact ih _ _ h
      case registered c i m =>
        split at h
        · simp_all
        · exact List.mem_append_left _ (ih _ _ h)
      case unregistered c i m =>
        split at h
        · simp at h
        · exact ih _ _ h
  have h3 := key _ _ _ h2
  have h4 : id ∈ allRegs (l1 ++ Ev.regRes t n id :: l2) := by
    simp only [allRegs] at h3 ⊢
    rw [extract_append]
    simp [extract, h3]
  refine ⟨id, rfl, h4, ?_⟩
  rintro rfl
  have h5 := (C01_ids_unique h).2.1
  apply h5
  rw [hlog]
  simp only [allRegs] at h4 ⊢
  rw [extract_append]
  simp only [extract, Option.toList, List.append_nil]
  exact List.mem_append_left _ h4

/-- Non-vacuity: an execution in which an id is handed out and returned. -/
example : ∃ s, Reach (tableClient (prog demoProg)) () 1 s ∧ allRegs s.log = [1] ∧
    ∃ pre l, s.log = pre ++ .ret 0 (.register 0) (.nat 1) :: l := by
  obtain ⟨s, hs, hl⟩ := demo_reach
  exact ⟨s, hs, by rw [hl]; decide, by rw [hl]; exact ⟨(demoLog.drop 3).reverse, (demoLog.take 2).reverse, by decide⟩⟩

/-- **C02.** While native thread `n` stays registered as `id` (no `unregistered` event for it in `mid`), every
    registration of `n`, by itself or by any other thread, obtains `id`, and no new id is created for it. -/
theorem C02_idempotent (h : Reach C d f s) {pre mid l : List (Ev τ)} {n id : Nat}
    (hlog : s.log = pre ++ (mid ++ l)) (hreg : regOf n l = some id)
    (hun : ∀ c i, Ev.unregistered c i n ∉ mid) :
    (∀ t i, Ev.regRes t n i ∈ mid → i = id) ∧ (∀ c i, Ev.registered c i n ∉ mid) := by
  have hl := (LInv.reach h).hist
  have key : ∀ m : List (Ev τ), (∃ p, p ++ m = mid) → regOf n (m ++ l) = some id ∧
      (∀ t i, Ev.regRes t n i ∈ m → i = id) ∧ (∀ c i, Ev.registered c i n ∉ m) := by
    intro m
    induction m with
    | nil => intro _; simp [hreg]
    | cons e m ih =>
      rintro ⟨p, hp⟩
      obtain ⟨h1, h2, h3⟩ := ih ⟨p ++ [e], by simp [hp]⟩
      have h4 : HP e (m ++ l) := hl.split (pre := pre ++ p) (by simp [hlog, ← hp])
      have h5 : ∀ c i, e ≠ .unregistered c i n := by
        rintro c i rfl
        exact hun c i (by rw [← hp]; simp)
      refine ⟨?_, ?_, ?_⟩
      · cases e <;> simp only [List.cons_append, regOf] <;> try exact h1
        case registered c i m' =>
          split
          · rename_i hh
            subst hh
            rw [h4.2.2] at h1; simp at h1
          · exact h1
        case unregistered c i m' =>
          split
          · rename_i hh
            subst hh
            exact absurd rfl (h5 c i)
          · exact h1
      · intro t i hi
        rcases List.mem_cons.1 hi with rfl | hi
        · have h6 : regOf n (m ++ l) = some i := h4
          rw [h1] at h6
          exact (Option.some.inj h6).symm
        · exact h2 t i hi
      · intro c i hi
        rcases List.mem_cons.1 hi with rfl | hi
        · have h6 : regOf n (m ++ l) = none := h4.2.2
          rw [h1] at h6
          simp at h6
        · exact h3 c i hi
  exact (key mid ⟨[], rfl⟩).2

/-- C02, the returned value: a registering call returns the id it obtained, which was the id of that native thread at
    that moment. -/
theorem C02_returned (h : Reach C d f s) {pre l : List (Ev τ)} {t n : Nat} {v : Val}
    (hlog : s.log = pre ++ .ret t (.register n) v :: l) :
    ∃ id l1 l2, v = .nat id ∧ l = l1 ++ .regRes t n id :: l2 ∧ regOf n l2 = some id := by
  have hl := (LInv.reach h).hist
  obtain ⟨id, rfl, hm⟩ := hl.split hlog
  obtain ⟨l1, l2, rfl⟩ := List.append_of_mem hm
  have h2 : HP (.regRes t n id) l2 := hl.split (pre := pre ++ .ret t (.register n) (.nat id) :: l1) (by simp [hlog])
  exact ⟨id, l1, l2, rfl, rfl, h2⟩

/-- Main registers, then registers native thread 5 (before it exists), then both again. -/
def regTwice : List (Act Nat Nat) :=
  [.call .registerThis 2, .call (.registerNative 5) 3, .call (.registerNative 5) 4, .call .registerThis 5]

/-- Non-vacuity: the second registrations of 5 and of 0 happen, with the same ids. -/
example : ∃ s, Reach (tableClient (prog regTwice)) () 1 s ∧
    ∃ mid l, s.log = [] ++ (mid ++ l) ∧ regOf 5 l = some 2 ∧ (∀ c i, Ev.unregistered c i 5 ∉ mid) ∧
      Ev.regRes 0 5 2 ∈ mid := by
  obtain ⟨s, hs, hl⟩ := wit (l := regTwice) (ls := go 0 16) (hnd := fun _ => none) (fun s => s.log) (b :=
      [.ret 0 (.register 0) (.nat 1), .regRes 0 0 1, .ret 0 (.register 5) (.nat 2), .regRes 0 5 2,
       .ret 0 (.register 5) (.nat 2), .regRes 0 5 2, .registered 1 2 5,
       .ret 0 (.register 0) (.nat 1), .regRes 0 0 1, .registered 0 1 0]) (by decide +kernel)
  exact ⟨s, hs, _, List.drop 6 s.log, (List.take_append_drop 6 s.log).symm,
      by rw [hl]; decide, by rw [hl]; simp, by rw [hl]; simp⟩

/-- **C03.** `get_all_registered_threads` returns exactly the ids registered and not unregistered at that moment,
    without duplicates; and an id is in that list iff some native thread is currently registered under it. -/
theorem C03_registry_exact (h : Reach C d f s) {pre l : List (Ev τ)} {t : Nat} {v : Val}
    (hlog : s.log = pre ++ .ret t .allIds v :: l) : v = .ids (liveIds l) := by
  exact (LInv.reach h).hist.split hlog

theorem C03_registry_spec (h : Reach C d f s) :
    (liveIds s.log).Nodup ∧ ∀ id, id ∈ liveIds s.log ↔ ∃ n, regOf n s.log = some id := by
  have hw := WF.reach h
  have hl := LInv.reach h
  refine ⟨by rw [hl.live]; exact hw.nod, ?_⟩
  intro id
  simp only [hl.live, hl.regOf, hw.idm, List.mem_map]
  constructor
  · rintro ⟨⟨i, c⟩, hc, rfl⟩
    exact ⟨_, c, hc, rfl⟩
  · rintro ⟨n, c, hc, -⟩
    exact ⟨_, hc, rfl⟩

/-- Non-vacuity: the demo calls `get_all_registered_threads` while one thread is registered. -/
example : ∃ s, Reach (tableClient (prog demoProg)) () 1 s ∧
    ∃ pre l, s.log = pre ++ .ret 0 .allIds (.ids [1]) :: l ∧ liveIds l = [1] := by
  obtain ⟨s, hs, hl⟩ := demo_reach
  exact ⟨s, hs, (demoLog.drop 15).reverse, (demoLog.take 14).reverse, by rw [hl]; decide, by decide⟩

end
end Itc
