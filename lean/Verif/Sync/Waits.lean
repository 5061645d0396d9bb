import Verif.Sync.Base
import Verif.Sync.ARet
import Verif.Core.Called

/-!
# Application frames that wait for a call (proof infrastructure, no claims)
-/
namespace Itc
namespace Sync
open Core
section
variable {α φ δ χ : Type} {A : App α φ δ χ} {f0 : φ}

/-- What is required of an action of the application: see `Core.Waits`. -/
def SWAct (w : φ → Option (Fr α φ)) : SAct α φ → Prop
  | .goto g => w g = none
  | .push g k => w g = none ∧ ∀ x, w k = some x → x = .client (.app g)
  | .core a k => (∀ x, w k = some x → x = .core (mapApi a).entry) ∧ ApiOK (fun _ g => w g = none) (fun _ => True) a
  | .sync a k => ∀ x, w k = some x → x = .client a.entry
  | _ => True

def wS (w : φ → Option (Fr α φ)) : SFrame α φ → Option (Fr α φ)
  | .app g => w g
  | _ => none

theorem wS_entry (w : φ → Option (Fr α φ)) (a : SApi α) : wS w a.entry = none := by cases a <;> rfl

theorem wS_api {w : φ → Option (Fr α φ)} {a : Api α φ} (h : ApiOK (fun _ g => w g = none) (fun _ => True) a) :
    ApiOK (fun _ g => wS w g = none) (fun _ => True) (mapApi a) := by
  cases a <;> simp only [mapApi, ApiOK] at h ⊢
  case init cb => cases cb <;> simp_all [wS]
  case spawn n f => exact h

/-- The layer puts an application frame on a stack only as the code of a functor. -/
theorem SS.wact {w : φ → Option (Fr α φ)} {run destroy : α → φ} {v : View} {d d' : SData α} {rv : Val} {f : SFrame α φ} {a : Act (STask α) (SFrame α φ)}
    (hrun : ∀ a, w (run a) = none ∧ w (destroy a) = none) (h : SS run destroy v d rv f d' a) : Core.WAct (wS w) a := by
  cases h
  case laRet K c => cases K <;> simp only [laNext] <;> (try split) <;> simp [Core.WAct, wS]
  case laEnd K c => cases K <;> simp only [laNext] <;> (try split) <;> simp [Core.WAct, wS]
  all_goals simp [Core.WAct, wS, ApiOK, hrun]
  all_goals (try split) <;> rfl

/-- Application frames that wait for a call. -/
def waits (w : φ → Option (Fr α φ)) (h0 : w f0 = none) (hrun : ∀ a, w (A.run a) = none ∧ w (A.destroy a) = none)
    (hact : ∀ {v d f rv ch d' a}, A.step v d f rv ch = some (d', a) → SWAct w a)
    (hthrow : ∀ {f e f'}, A.onThrow f e = some f' → w f' = none) : Waits (client A) (.app f0) where
  W := wS w
  init := h0
  run k := by cases k <;> simp [client, wS, hrun]
  destroy k := by cases k <;> simp [client, wS, hrun]
  act := by
    intro v d f rv ch d' a h
    cases client_cs h with
    | app g ad sa hA =>
      have := hact hA
      cases sa with
      | goto g => exact this
      | push g k => exact this
      | core a k => exact ⟨this.1, wS_api this.2⟩
      | sync a k => exact ⟨wS_entry w a, this⟩
      | _ => trivial
    | sync f sd a hS => exact hS.wact hrun
  throw := by
    intro f e f' h
    cases f <;> simp only [client, sThrow, Option.map_eq_some_iff, reduceCtorEq, Option.some.injEq] at h
    case app g => obtain ⟨g', h1, rfl⟩ := h; exact hthrow h1
    all_goals subst h; rfl

/-- The layer leaves an application frame below a call only for the application. -/
theorem SS.cont_app {run destroy : α → φ} {v : View} {d d' : SData α} {rv : Val} {f : SFrame α φ} {a : Act (STask α) (SFrame α φ)}
    (h : SS run destroy v d rv f d' a) (k : φ) : a.cont ≠ some (.app k) := by
  cases h
  case laRet K c => cases K <;> simp only [laNext] <;> (try split) <;> simp [Act.cont]
  case laEnd K c => cases K <;> simp only [laNext] <;> (try split) <;> simp [Act.cont]
  all_goals simp [Act.cont]

theorem app_cont {v : View} {d d' : Data α δ} {f : SFrame α φ} {rv : Val} {ch : Ch χ} {b : Act (STask α) (SFrame α φ)} {k : φ}
    (h : (client A).step v d f rv ch = some (d', b)) (hk : b.cont = some (.app k)) :
    ∃ g sa, f = .app g ∧ b = liftAct sa ∧ A.step v d.ad g rv ch = some (d'.ad, sa) := by
  cases client_cs h with
  | app g ad sa hA => exact ⟨g, sa, rfl, rfl, hA⟩
  | sync f sd a hS => exact absurd hk (hS.cont_app k)

/-- Only a step of the application changes its data. -/
theorem app_data {s s' : SSt α φ δ} {t : Nat} {ch : Ch χ} (hs : step (client A) s (.th t ch) = some s') : s'.data.ad = s.data.ad ∨
    ∃ g rest sa, (s.thr t).exc = none ∧ s.stk t = .client (.app g) :: rest ∧ A.step (s.view t) s.data.ad g (s.thr t).rv ch = some (s'.data.ad, sa) := by
  cases step_cl hs with
  | cl f r0 d' b hexc hold hstep hdata hact =>
    generalize hrv : (s.thr t).rv = rv at hstep
    cases client_cs hstep with
    | app g ad sa hA => exact .inr ⟨g, r0, sa, hexc, hold, by rw [hdata]; exact hA⟩
    | sync f sd a hS => exact .inl (by rw [hdata])
  | core f r0 hexc hold hcs hdata hcore => exact .inl (by rw [hdata])
  | halt e hexc hst' hterm hexc' hdata => exact .inl (by rw [hdata])
  | task e f k' r0 hexc hold hf hst' hexc' hdata => exact .inl (by rw [hdata])
  | cpop e f r0 hexc hold hf hst' hexc' hdata => exact .inl (by rw [hdata])
  | «catch» e g g' r0 hexc hold hg hst' hexc' hdata => exact .inl (by rw [hdata])
  | pop e g r0 hexc hold hg hst' hexc' hdata => exact .inl (by rw [hdata])
  | fin hold hst' hexc' hdata => exact .inl (by rw [hdata])

end
end Sync
end Itc
