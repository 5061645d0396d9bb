import Verif.Obj.Pair
import Verif.Core.Called

/-!
# The id of a thread object is the one registered for its native thread (proof infrastructure, no claims)
-/
namespace Itc
namespace Obj
open Core
section
variable {τ φ δ χ : Type}

/-- The constructor of class thread waits for `register_thread` of the native thread it has started. -/
def wt : OFrame φ → Option (Frame τ (OFrame φ))
  | .mkId _ n => some (.core (.regLook (some n)))
  | _ => none

theorem wt_api {a : Api τ φ} {b : Api τ (OFrame φ)} (h : mapApi a = some b) : ApiOK (fun _ g => wt (τ := τ) g = none) (fun _ => True) b := by
  cases a <;> simp only [mapApi, Option.some.injEq, reduceCtorEq] at h <;> subst h <;> simp [ApiOK, wt]

theorem wt_step {U : User τ φ δ χ} {v : View} {d d' : OData δ} {f : OFrame φ} {rv : Val} {ch : Ch χ} {a : Act τ (OFrame φ)}
    (h : (client U).step v d f rv ch = some (d', a)) :
    WAct wt a := by
  rcases client_os h with ⟨g', oa, rfl, h1, h2, rfl⟩ | h
  · cases oa with
    | core b k =>
      simp only [liftAct]
      cases hb : mapApi b with
      | none => trivial
      | some b' => exact ⟨by simp [wt], wt_api hb⟩
    | obj b k => cases b <;> simp [liftAct, OApi.entry, wt, WAct]
    | _ => simp [liftAct, wt, WAct]
  · cases h <;> simp [wt, ApiOK, WAct]
    all_goals first | rfl | (cases ‹JK› <;> rfl) | (split <;> rfl) | skip

def waits (U : User τ φ δ χ) (f : φ) : Waits (client U) (.usr f) where
  W := wt
  init := rfl
  run _ := rfl
  destroy _ := rfl
  act := wt_step
  throw := by
    intro f e f' h
    cases f <;> simp only [client, oThrow, Option.map_eq_some_iff, reduceCtorEq] at h
    obtain ⟨g, -, rfl⟩ := h
    rfl

/-- Native thread `n` is or was registered under `id`. -/
def Regd (n id : Nat) (log : List (Ev τ)) : Prop := id ≠ 0 ∧ ∃ c, Ev.registered c id n ∈ log

/-- The ids in the events of an object are those of its native thread. -/
structure Ids (s : OSt τ φ δ) : Prop where
  made : ∀ t o n id, .made t o n id ∈ s.data.olog → Regd n id s.log ∧ Ev.regRes t n id ∈ s.log
  began : ∀ t o f x, .began t o f x ∈ s.data.olog → ∀ n, x.native = some n → Regd n x.id s.log

theorem lastMade_mem {n id : Nat} {l : List OEv} (h : lastMade n l = some id) : ∃ t o, .made t o n id ∈ l := by
  induction l with
  | nil => cases h
  | cons e l ih =>
    cases e with
    | made t o m i =>
      simp only [lastMade] at h
      split at h
      · rename_i hm; subst hm; cases h; exact ⟨t, o, by simp⟩
      · obtain ⟨t', o', h'⟩ := ih h; exact ⟨t', o', by simp [h']⟩
    | _ => obtain ⟨t', o', h'⟩ := ih h; exact ⟨t', o', by simp [h']⟩

theorem ids_reach {U : User τ φ δ χ} {ud : δ} {f : φ} {s : OSt τ φ δ} (hr : OR U ud f s) : Ids s := by
  refine Reach.induct Ids ?_ ?_ hr
  · refine ⟨by simp [Core.init], by simp [Core.init]⟩
  · intro s l s' hr q hs
    have hp : s.term = false := by
      cases l <;> simp only [step] at hs <;> (split at hs; contradiction; rename_i h; simp at h; exact h.2)
    have up : ∀ {e}, e ∈ s.log → e ∈ s'.log := fun h => step_logm hs h
    have upR : ∀ {n id}, Regd n id s.log → Regd n id s'.log := fun h => ⟨h.1, h.2.imp fun _ => up⟩
    cases l with
    | tick n => rw [step_tick _ s s' n hs]; exact ⟨q.made, q.began⟩
    | th t ch =>
      have old : s'.data.olog = s.data.olog → Ids s' := fun h =>
        ⟨fun u o n id hm => ⟨upR (q.made u o n id (h ▸ hm)).1, up (q.made u o n id (h ▸ hm)).2⟩,
          fun u o f x hm n hn => upR (q.began u o f x (h ▸ hm) n hn)⟩
      have idle : ∀ o x, s.data.slot o = some ⟨x, false⟩ → ∀ n, x.native = some n → Regd n x.id s'.log := by
        intro o x hx n hn
        obtain ⟨u, o', hm⟩ := lastMade_mem ((pairs_reach hr hp).idle o x hx n hn)
        exact upR (q.made u o' n x.id hm).1
      rcases data_step hs with ⟨-, h⟩ | ⟨f, rest, a, hexc, hold, hos, hact⟩
      · exact old h
      · have one : ∀ e, s'.data.olog = e :: s.data.olog →
            (∀ u o n id, e = .made u o n id → Regd n id s'.log ∧ Ev.regRes u n id ∈ s'.log) →
            (∀ u o f x, e = .began u o f x → ∀ n, x.native = some n → Regd n x.id s'.log) → Ids s' := by
          intro e h h1 h2
          refine ⟨fun u o n id hm => ?_, fun u o f x hm n hn => ?_⟩
          · rw [h] at hm
            rcases List.mem_cons.1 hm with hm | hm
            · exact h1 u o n id hm.symm
            · exact ⟨upR (q.made u o n id hm).1, up (q.made u o n id hm).2⟩
          · rw [h] at hm
            rcases List.mem_cons.1 hm with hm | hm
            · exact h2 u o f x hm.symm n hn
            · exact upR (q.began u o f x hm n hn)
        generalize hrv : (s.thr t).rv = rv at hos
        generalize hd : s'.data = d' at hos
        cases hos
        case mkId o n id =>
          have hdat := congrArg OData.olog hd
          rcases (waits U _).sound hr (pre := []) hold (a := .core (.regLook (some n))) rfl with ⟨h, -⟩ | ⟨-, h⟩
          · exact absurd rfl h
          · obtain ⟨id', c, h1, h2, h3, h4⟩ := h.reg (m := some n) rfl hp
            rw [hrv] at h1
            cases h1
            refine one _ hdat ?_ ?_
            · intro u o' m i he
              cases he
              exact ⟨⟨h2, c, up h3⟩, up h4⟩
            · intro u o' f x he; cases he
        all_goals
          have hdat := congrArg OData.olog hd
          first
          | exact old hdat
          | (refine one _ hdat (by intro u o n id he; cases he) ?_
             intro u o f x he
             cases he
             done)
          | (refine one _ hdat (by intro u o n id he; cases he) ?_
             intro u o f x he
             cases he
             exact idle _ _ (by assumption))

end
end Obj
end Itc
