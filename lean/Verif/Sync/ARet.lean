import Verif.Sync.Ty

/-!
# Results of calls that take one step (proof infrastructure, no claims)

`AK`: application frames that wait for a call of this layer which takes a single step, and what they know about its result.
-/
namespace Itc
namespace Sync
open Core
section
variable {α φ δ χ : Type}

/-- Calls that take one step. -/
def SApi.one : SApi α → Prop
  | .lock _ => True
  | .unlock _ => True
  | .promNew _ _ => True
  | .getFuture _ => True
  | .package _ _ => True
  | .isReady _ => True
  | .hasError _ => True
  | _ => False

theorem SApi.one_cont {run destroy : α → φ} {v : View} {d d' : SData α} {rv : Val} {a : SApi α} {x : Act (STask α) (SFrame α φ)}
    (h : a.one) (hs : SS run destroy v d rv (a.entry : SFrame α φ) d' x) : x.cont = none ∧ x.callee = none := by
  cases a <;> first | exact False.elim h | (simp only [SApi.entry] at hs; cases hs <;> exact ⟨rfl, rfl⟩)

theorem SApi.one_throw {onThrow : φ → Exn → Option φ} {a : SApi α} (h : a.one) (e : Exn) : sThrow onThrow (a.entry : SFrame α φ) e = none := by
  cases a <;> first | exact False.elim h | rfl

/-- Application frames that a step of this layer puts on top. -/
theorem SS.to_app {run destroy : α → φ} {v : View} {d d' : SData α} {rv : Val} {f : SFrame α φ} {a : Act (STask α) (SFrame α φ)}
    (h : SS run destroy v d rv f d' a) : ((∀ g, a ≠ .goto (.app g)) ∧ ∀ g k, a ≠ .push (.app g) k) ∨
      (∃ b, (∀ g, a ≠ .goto (.app g)) ∧ ∀ g k, a = .push (.app g) k → g = run b) ∨
      (∃ b, (∀ g, a ≠ .goto (.app g)) ∧ ∀ g k, a = .push (.app g) k → g = destroy b) := by
  cases h
  case laRet K c => cases K <;> simp only [laNext] <;> (try split) <;> exact .inl ⟨by simp, by simp⟩
  case laEnd K c => cases K <;> simp only [laNext] <;> (try split) <;> exact .inl ⟨by simp, by simp⟩
  case ftRun p b => exact .inr (.inl ⟨b, by simp, by rintro g k h; cases h; rfl⟩)
  case ftDtor p b => exact .inr (.inr ⟨b, by simp, by rintro g k h; cases h; rfl⟩)
  all_goals exact .inl ⟨by simp, by simp⟩

structure AK (A : App α φ δ χ) (ad0 : δ) (f0 : φ) where
  E : φ → Option (SApi α)
  R : SData α → SApi α → Val → Prop
  mono : ∀ {d d' a v}, Ext d d' → R d a v → R d' a v
  one : ∀ {k a}, E k = some a → a.one
  e0 : E f0 = none
  run : ∀ a, E (A.run a) = none ∧ E (A.destroy a) = none
  throw : ∀ {f e f'}, A.onThrow f e = some f' → E f' = none
  code : ∀ {v ad f rv ch ad' a k}, A.step v ad f rv ch = some (ad', .core a k) → ApiOK (fun _ g => E g = none) (fun _ => True) a
  goto : ∀ {v ad f rv ch ad' g}, A.step v ad f rv ch = some (ad', .goto g) → E g = none
  push : ∀ {v ad f rv ch ad' g k}, A.step v ad f rv ch = some (ad', .push g k) → E g = none ∧ E k = none
  core : ∀ {v ad f rv ch ad' a k}, A.step v ad f rv ch = some (ad', .core a k) → E k = none
  sync : ∀ {v ad f rv ch ad' a k b}, A.step v ad f rv ch = some (ad', .sync a k) → E k = some b → b = a
  ret : ∀ {s : SSt α φ δ} {t : Nat} {a : SApi α} {k : φ} {rest : List (Fr α φ)} {d' : SData α} {v : Val}, SR A ad0 f0 s →
    s.stk t = .client a.entry :: .client (.app k) :: rest → E k = some a →
    SS A.run A.destroy (s.view t) s.data.sd (s.thr t).rv (a.entry : SFrame α φ) d' (.ret v) → R d' a v

variable {A : App α φ δ χ} {ad0 : δ} {f0 : φ}

namespace AK
variable (B : AK A ad0 f0)

def adj : Fr α φ → Fr α φ → Prop
  | .client (.app k), u => ∀ a, B.E k = some a → u = .client a.entry
  | _, _ => True

def ef : SFrame α φ → Prop
  | .app g => B.E g = none
  | _ => True

theorem codes {s : SSt α φ δ} (h : SR A ad0 f0 s) : Codes B.ef s := by
  refine Codes.reach ?_ h
  intro v d f rv ch d' a k hs
  have key : ∀ x, (client A).step v d f rv ch = some (d', x) → x = .call a k → ApiOK (fun _ g => B.ef g) (fun _ => True) a := by
    intro x hs hx
    cases client_cs hs with
    | app g ad sa hA =>
      clear hs
      cases sa <;> simp [liftAct] at hx
      obtain ⟨rfl, -⟩ := hx
      rename_i a' k'
      have := B.code hA
      clear hA
      cases a' <;> simp only [mapApi, ApiOK] at this ⊢ <;> first | trivial | exact this | skip
      intro f hf u
      simp only [Option.mem_def, Option.map_eq_some_iff] at hf
      obtain ⟨g, hg, rfl⟩ := hf
      exact this g hg u
    | sync f sd x hS =>
      cases hS
      case laRet K c => exact (laNext_call hx).elim
      case laEnd K c => exact (laNext_call hx).elim
      all_goals first | (cases hx; done) | (cases hx; trivial)
  exact key _ hs rfl

theorem closed (l : Fr α φ) : Closed (client A) (SR A ad0 f0) (fun _ => False) (B.adj l) := by
  by_cases hl : ∃ k a, l = .client (.app k) ∧ B.E k = some a
  · obtain ⟨k, a, rfl, hk⟩ := hl
    refine ⟨?_, ?_, ?_, ?_⟩
    · intro s t ch f rest d' x g hj he hst hs hc hf
      have hf := hf a hk
      obtain rfl := Frame.client.inj hf
      exfalso
      generalize hy : (a.entry : SFrame α φ) = y at hs
      cases client_cs hs with
      | app g ad sa hA => cases a <;> first | exact B.one hk | (cases hy; done)
      | sync f sd x hS =>
        subst hy
        rw [(SApi.one_cont (B.one hk) hS).1] at hc; cases hc
    · intro s t f pre g h hf
      have := hf a hk
      cases this
    · intro g e g' _ ht hf
      have hf := hf a hk
      obtain rfl := Frame.client.inj hf
      have ht : sThrow A.onThrow (a.entry : SFrame α φ) e = some g' := ht
      rw [SApi.one_throw (B.one hk)] at ht; cases ht
    · intro f k' e _ _ hf
      have := hf a hk
      cases this
  · have : ∀ u, B.adj l u := by
      intro u
      unfold adj
      split
      · intro a ha; exact absurd ⟨_, a, rfl, ha⟩ hl
      · trivial
    exact ⟨fun _ _ _ _ _ _ => this _, fun _ _ => this _, fun _ _ _ => this _, fun _ _ _ => this _⟩

def stack : Stacking (client A) (SR A ad0 f0) where
  nt _ := False
  Adj := B.adj
  closed := B.closed
  call := by
    intro s t ch f rest d' a u g _ _ _ hs hu hg
    cases g with
    | app k =>
      intro b hb
      cases client_cs hs with
      | app g' ad sa hA =>
        cases sa <;> simp only [liftAct, Act.callee, Act.cont, Option.some.injEq, reduceCtorEq, SFrame.app.injEq] at hu hg
        · subst hg; rw [(B.push hA).2] at hb; cases hb
        · subst hg; rw [B.core hA] at hb; cases hb
        · subst hg; subst hu; rw [B.sync hA hb]
      | sync f sd a hS =>
        exfalso
        cases hS
        case laRet K c => rcases laNext_cont hg with ⟨p, dn, l, h1, dn', h2⟩ | ⟨h1, -, h2⟩ | ⟨h1, -, h2⟩ <;> cases h2
        case laEnd K c => rcases laNext_cont hg with ⟨p, dn, l, h1, dn', h2⟩ | ⟨h1, -, h2⟩ | ⟨h1, -, h2⟩ <;> cases h2
        all_goals first | (cases hg; done) | (cases hu; done)
    | _ => trivial
  core := by
    intro s t f rest u g hj hst h
    cases h <;> trivial
  task := by intros; trivial
  noThrow _ _ _ _ := id
  pop h := h.elim
  unwind h := h.elim
  rethrow _ := id

def P (d : SData α) : SFrame α φ → Val → Prop
  | .app k, v => ∀ a, B.E k = some a → B.R d a v
  | _, _ => True

def top : TopInv (client A) (SR A ad0 f0) B.stack where
  I _ := True
  P d _ f v := B.P d.sd f v
  triv := B.ef
  triv_ok := by
    intro d t f v h
    cases f <;> first | trivial | skip
    intro a ha
    have h : B.E _ = none := h
    rw [h] at ha; cases ha
  run k := by cases k <;> first | trivial | exact (B.run _).1
  destroy k := by cases k <;> first | trivial | exact (B.run _).2
  code h := B.codes h
  step := by
    intro s t ch f rest d' a hj _ he hst hp hs
    cases client_cs hs with
    | app g ad sa hA =>
      refine ⟨trivial, fun _ _ _ _ _ _ h => h, ?_⟩
      cases sa <;> simp only [liftAct, TopAct]
      · intro a ha; rw [B.goto hA] at ha; cases ha
      · intro a ha; rw [(B.push hA).1] at ha; cases ha
      · rename_i a k
        cases a <;> trivial
      · intro l rest' _ hadj
        cases l <;> first | trivial | skip
        intro a ha
        have h1 := hadj a ha
        exfalso
        have h2 := B.one ha
        clear hadj ha
        cases a <;> first | exact h2 | (cases h1; done)
      · exact hp
    | sync f sd a hS =>
      have hext := hS.ext
      refine ⟨trivial, ?_, ?_⟩
      · intro u g r v _ _ h
        cases g <;> first | trivial | skip
        exact fun a ha => B.mono hext (h a ha)
      · cases a with
        | ret v =>
          intro l rest' hrest hadj
          cases l <;> first | trivial | skip
          intro a ha
          have h1 := hadj a ha
          obtain rfl := Frame.client.inj h1
          subst hrest
          exact B.ret hj hst ha hS
        | goto g =>
          cases g <;> first | trivial | skip
          rename_i g
          intro a ha
          rcases SS.to_app hS with h | ⟨b, h⟩ | ⟨b, h⟩
          · exact absurd rfl (h.1 g)
          · exact absurd rfl (h.1 g)
          · exact absurd rfl (h.1 g)
        | push g k =>
          cases g <;> first | trivial | skip
          rename_i g
          intro a ha
          rcases SS.to_app hS with h | ⟨b, h⟩ | ⟨b, h⟩
          · exact absurd rfl (h.2 g k)
          · rw [h.2 g k rfl, (B.run b).1] at ha; cases ha
          · rw [h.2 g k rfl, (B.run b).2] at ha; cases ha
        | call a k => trivial
        | throw e => trivial
        | terminate => cases f <;> first | trivial | exact hS.not_app.elim
  core := by
    intro s t f l rest v hj _ hst hadj hv
    cases l <;> first | trivial | skip
    intro a ha
    cases (hadj a ha)
  handler := by
    intro s t f rest e f' hj _ hst he hf
    cases f' <;> first | trivial | skip
    intro a ha
    have hf : sThrow A.onThrow f e = some _ := hf
    cases f <;> first | (cases hf; done) | (have hf := Option.some.inj hf; cases hf; done) | skip
    simp only [sThrow, Option.map_eq_some_iff] at hf
    obtain ⟨x, hx, hx'⟩ := hf
    obtain rfl := SFrame.app.inj hx'
    rw [B.throw hx] at ha; cases ha

theorem sound {s : SSt α φ δ} (h : SR A ad0 f0 s) {t : Nat} {k : φ} {rest : List (Fr α φ)} {a : SApi α}
    (hst : s.stk t = .client (.app k) :: rest) (he : (s.thr t).exc = none) (hk : B.E k = some a) : B.R s.data.sd a (s.thr t).rv :=
  (B.top.sound (fun _ h => h) trivial B.e0 h).2 t _ rest hst he a hk

end AK
end
end Sync
end Itc
