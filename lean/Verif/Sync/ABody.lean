import Verif.Sync.ATy

/-!
# Functors of packaged tasks (proof infrastructure, no claims)

`B` holds for every functor that the application hands to `then`, `async` and for packaged tasks: it holds for the functor of every packaged task.
Functors that are dispatched directly are not concerned.
-/
namespace Itc
namespace Sync
open Core
section
variable {α φ δ χ : Type} {A : App α φ δ χ} {ad0 : δ} {f0 : φ}

/-- Functors in a call. -/
def SApi.body : SApi α → Option α
  | .futThen _ _ _ _ a => some a
  | .async _ _ _ a => some a
  | .runTask _ a => some a
  | .dropTask _ a => some a
  | _ => none

def bodyP (α φ δ : Type) (B : α → Prop) : AP α φ δ where
  W _ _ _ a := B a
  L _ _ a := B a
  F _ _ _ _ := True
  Q _ _ _ := True
  G _ _ _ _ := True

/-- An application without steps. -/
def mute (A : App α φ δ χ) : App α φ δ χ := { A with step := fun _ _ _ _ _ => none }

def bodyT (A : App α φ δ χ) (ad0 : δ) (f0 : φ) (B : α → Prop) : AT (mute A) ad0 f0 where
  toAP := bodyP α φ δ B
  I _ _ := True
  mono _ := ⟨id, id, id, id, id, id, id, id⟩
  wl _ h _ := h
  run _ _ := trivial
  runR _ := trivial
  des _ _ := trivial
  gset _ _ _ := trivial
  gdtor _ _ _ := trivial
  gpkg _ _ := trivial
  app _ _ _ _ _ h := by cases h
  sync _ _ _ _ _ := trivial
  throw _ _ _ _ _ := trivial

def bodK (B : α → Prop) : STask α → Prop
  | .fut _ a => B a
  | _ => True

def bodF (B : α → Prop) (d : SData α) (ad : δ) (t : Nat) (f : SFrame α φ) : Prop := (bodyP α φ δ B).fr d ad t f

theorem bod_task {B : α → Prop} {d : SData α} {ad : δ} {k : STask α} (h : bodK B k) (t : Nat) :
    bodF B d ad t ((client A).run k) ∧ bodF B d ad t ((client A).destroy k) := by
  cases k with
  | noop => exact ⟨trivial, trivial⟩
  | app a => exact ⟨trivial, trivial⟩
  | fut p a => exact ⟨⟨h, trivial⟩, ⟨h, trivial⟩⟩

def body (A : App α φ δ χ) (ad0 : δ) (f0 : φ) (B : α → Prop)
    (app : ∀ {v ad f rv ch ad' b k a}, A.step v ad f rv ch = some (ad', .sync b k) → b.body = some a → B a) : Typing (client A) (SR A ad0 f0) where
  I d := ∀ p, ∀ c ∈ (d.sd.st p).cbs, B c.body
  PF d t f := bodF B d.sd d.ad t f
  PT _ k := bodK B k
  step := by
    intro s t ch f rest d' a hj he hst hi hp hs
    have mono : ∀ {d d' : SData α} {ad ad' : δ} {t f}, bodF B d ad t f → bodF (φ := φ) B d' ad' t f := by
      intro d d' ad ad' t f h
      cases f <;> exact h
    refine ⟨?_, fun _ _ h => mono h, fun _ h => h, ?_⟩
    · cases client_cs hs with
      | app g ad sa hA => exact hi
      | sync f sd a hS =>
        intro p c hc
        rcases hS.cbs hc with h | rfl
        · exact hi p c h
        · exact hp
    · cases client_cs hs with
      | app g ad sa hA =>
        cases sa with
        | goto g => trivial
        | push g k => exact ⟨trivial, trivial⟩
        | core a k =>
          refine ⟨trivial, ?_⟩
          cases a <;> simp only [mapApi, ApiOK] <;> first | trivial | skip
          · intro f hf u
            simp only [Option.mem_def, Option.map_eq_some_iff] at hf
            obtain ⟨g, -, rfl⟩ := hf
            trivial
          · exact fun _ => trivial
        | sync b k =>
          have h := fun a => app (a := a) hA
          refine ⟨?_, trivial⟩
          clear hs hA
          cases b <;> first | trivial | exact h _ rfl | exact ⟨h _ rfl, trivial⟩ | skip
          rename_i p _ _ _ _
          cases p <;> first | trivial | exact h _ rfl
        | ret v => trivial
        | throw e => trivial
        | terminate => trivial
      | sync f sd a hS =>
        have := (bodyT A ad0 f0 B).act (t := t) (ad := s.data.ad) (ty1_I hj) (ty1_top hj hst) ⟨trivial, hi, fun _ _ _ _ => trivial⟩ trivial hp hS
        clear hs hS
        cases a <;> first | exact this | skip
        rename_i b k
        refine ⟨this.1, ?_⟩
        have h2 := this.2
        clear this
        cases b <;> simp only [ApiOK] at h2 ⊢ <;> first | trivial | exact h2 | skip
        all_goals (rename_i x; cases x <;> first | trivial | exact h2.1.1)
  task := bod_task
  throw := by
    intro s t f rest e f' hj hst he hp hf
    have hf : sThrow A.onThrow f e = some f' := hf
    have hn := (stk_ok hj).exc t _ _ (by simp [he]) hst
    cases f <;> first
      | (cases hf; done)
      | exact absurd trivial hn
      | (have hf := Option.some.inj hf; subst hf; first | exact hp | trivial)
      | skip
    simp only [sThrow, Option.map_eq_some_iff] at hf
    obtain ⟨x, hx, rfl⟩ := hf
    trivial

end
end Sync
end Itc
