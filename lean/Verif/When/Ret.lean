import Verif.When.Lin
import Verif.Sync.ASet

/-!
# The future that when_all / when_any hand out (proof infrastructure, no claims)
-/
namespace Itc
namespace When
open Core Sync
section
variable {α φ δ χ : Type}

/-- `p` was made for context `c`. -/
def homeOk (d : SData (WTask α)) (c p : Nat) : Prop := p < d.nst ∧ (d.st p).home = pob c ∧ (d.st p).owner = .usr

theorem homeOk.mono {d d' : SData (WTask α)} {c p : Nat} (h : homeOk d c p) (he : Ext d d') : homeOk d' c p :=
  ⟨lt_mono he h.1, (he.home h.1).trans h.2.1, (he.owner h.1).trans h.2.2⟩

/-- The frames that wait for get_future. -/
def ak (U : WApp α φ δ χ) (u0 : δ) (f0 : φ) : AK (whenApp U) { u := u0 } (.usr f0) where
  E
    | .mkD c => some (.getFuture (pob c))
    | .wGot c _ => some (.getFuture (pob c))
    | .gGot c => some (.getFuture (pob c))
    | .aIn c _ => some (.lock (pob c))
    | .kBody c _ _ => some (.lock (pob c))
    | _ => none
  R d a v := match a with
    | .getFuture q => ∀ c, q = pob c → ∃ p, v = .nat p ∧ homeOk d c p
    | _ => True
  mono {d d' a v} he h := by
    cases a <;> first | trivial | skip
    intro c hc
    obtain ⟨p, h1, h2⟩ := h c hc
    exact ⟨p, h1, h2.mono he⟩
  one {k a} h := by
    cases k <;> simp only [Option.some.injEq, reduceCtorEq] at h <;> subst h <;> trivial
  e0 := rfl
  run a := by cases a <;> exact ⟨rfl, rfl⟩
  throw {f e f'} h := by
    rcases when_throw h with ⟨g, g', -, rfl⟩ | h
    · rfl
    · cases f <;> simp only [wthrow, Option.some.injEq, reduceCtorEq] at h <;> subst h <;> rfl
  code := by
    intro v ad f rv ch ad' a k hs
    generalize hx : (SAct.core a k : SAct (WTask α) (WFrame φ)) = x at hs
    cases when_wc hs with
    | usr g u wa hU =>
      clear hs
      cases wa <;> simp only [liftW, SAct.core.injEq, reduceCtorEq] at hx
      obtain ⟨rfl, -⟩ := hx
      exact mapW_ok (fun _ _ => rfl) (fun _ => trivial) _
    | wh f d' a' hf hW =>
      cases hW <;> first | (cases hx; done) | skip
      all_goals (rename_i ha; rcases ha with ⟨-, rfl⟩ | rfl <;> cases hx)
  goto := by
    intro v ad f rv ch ad' g hs
    generalize hx : (SAct.goto g : SAct (WTask α) (WFrame φ)) = x at hs
    cases when_wc hs with
    | usr g u wa hU =>
      clear hs
      cases wa <;> simp only [liftW, SAct.goto.injEq, reduceCtorEq] at hx
      subst hx; rfl
    | wh f d' a' hf hW =>
      cases hW <;> first | (cases hx; done) | (cases hx; rfl) | skip
      all_goals (rename_i ha; rcases ha with ⟨-, rfl⟩ | rfl <;> cases hx; rfl)
  push := by
    intro v ad f rv ch ad' g k hs
    generalize hx : (SAct.push g k : SAct (WTask α) (WFrame φ)) = x at hs
    cases when_wc hs with
    | usr g u wa hU =>
      clear hs
      cases wa <;> simp only [liftW, SAct.push.injEq, reduceCtorEq] at hx
      · obtain ⟨rfl, rfl⟩ := hx; exact ⟨rfl, rfl⟩
      · obtain ⟨rfl, rfl⟩ := hx; exact ⟨rfl, rfl⟩
    | wh f d' a' hf hW =>
      cases hW <;> first | (cases hx; done) | skip
      all_goals (rename_i ha; rcases ha with ⟨-, rfl⟩ | rfl <;> cases hx)
  core := by
    intro v ad f rv ch ad' a k hs
    generalize hx : (SAct.core a k : SAct (WTask α) (WFrame φ)) = x at hs
    cases when_wc hs with
    | usr g u wa hU =>
      clear hs
      cases wa <;> simp only [liftW, SAct.core.injEq, reduceCtorEq] at hx
      obtain ⟨-, rfl⟩ := hx; rfl
    | wh f d' a' hf hW =>
      cases hW <;> first | (cases hx; done) | skip
      all_goals (rename_i ha; rcases ha with ⟨-, rfl⟩ | rfl <;> cases hx)
  sync := by
    intro v ad f rv ch ad' a k b hs hk
    generalize hx : (SAct.sync a k : SAct (WTask α) (WFrame φ)) = x at hs
    cases when_wc hs with
    | usr g u wa hU =>
      clear hs
      cases wa <;> simp only [liftW, SAct.sync.injEq, reduceCtorEq] at hx
      obtain ⟨-, rfl⟩ := hx; cases hk
    | wh f d' a' hf hW =>
      clear hs
      cases hW <;> first | (cases hx; done) | (cases hx; cases hk; done) | (cases hx; cases hk; rfl) | skip
      all_goals (rename_i ha; rcases ha with ⟨-, rfl⟩ | rfl <;> cases hx <;> cases hk)
  ret := by
    intro s t a k rest d' v hj hst hk hS
    have ho := obj_ok hj
    have key : ∀ q, SS (whenApp U).run (whenApp U).destroy (s.view t) s.data.sd (s.thr t).rv (.poFut q) d' (.ret v) →
        ∀ c, q = pob c → ∃ p, v = .nat p ∧ homeOk d' c p := by
      intro q hS c hc
      have he := hS.ext
      generalize hx : (.ret v : Act (STask (WTask α)) (SFrame (WTask α) (WFrame φ))) = x at hS
      generalize hd : d' = d'' at *
      cases hS <;> first | (cases hx; done) | skip
      rename_i p hr hp
      cases hx
      obtain ⟨x1, x2, x3⟩ := ho _ _ hp
      exact ⟨p, rfl, homeOk.mono ⟨x1, (x3 c).2 hc, x2⟩ he⟩
    cases k <;> simp only [Option.some.injEq, reduceCtorEq] at hk <;> subst hk <;> first | exact key _ hS | trivial

variable {U : WApp α φ δ χ} {u0 : δ} {f0 : φ} {s : WSt α φ δ}

theorem got_ok (h : WR U u0 f0 s) {t c : Nat} {l : List (Nat × Bool)} {rest : List (Fr (WTask α) (WFrame φ))}
    (hst : s.stk t = .client (.app (.wGot c l)) :: rest) (he : (s.thr t).exc = none) : ∃ p, (s.thr t).rv = .nat p ∧ homeOk s.data.sd c p :=
  (ak U u0 f0).sound h hst he rfl c rfl

theorem mkD_ok (h : WR U u0 f0 s) {t c : Nat} {rest : List (Fr (WTask α) (WFrame φ))}
    (hst : s.stk t = .client (.app (.mkD c)) :: rest) (he : (s.thr t).exc = none) : ∃ p, (s.thr t).rv = .nat p ∧ homeOk s.data.sd c p :=
  (ak U u0 f0).sound h hst he rfl c rfl

theorem gGot_ok (h : WR U u0 f0 s) {t c : Nat} {rest : List (Fr (WTask α) (WFrame φ))}
    (hst : s.stk t = .client (.app (.gGot c)) :: rest) (he : (s.thr t).exc = none) : ∃ p, (s.thr t).rv = .nat p ∧ homeOk s.data.sd c p :=
  (ak U u0 f0).sound h hst he rfl c rfl

/-! ## Promises are constructed once, and the future for no inputs is ready -/

theorem nctx_mono {v : View} {d d' : WData δ} {rv : Val} {f : WFrame φ} {a : SAct (WTask α) (WFrame φ)} (h : WS v d rv f d' a) : d.nctx ≤ d'.nctx := by
  cases h <;> first | exact Nat.le_refl _ | exact Nat.le_succ _

/-- The promise object of a context is constructed once. -/
def an (U : WApp α φ δ χ) (u0 : δ) (f0 : φ) : AN (whenApp U) { u := u0 } (.usr f0) where
  P q := ∃ c, q = pob c
  N ad q := ∀ c, q = pob c → c < ad.nctx
  mono := by
    intro s t ch g rest ad' sa q hr hst hs hp hn
    cases when_wc hs with
    | usr g u a hU => exact hn
    | wh f d' a hf hW => exact fun c hc => Nat.lt_of_lt_of_le (hn c hc) (nctx_mono hW)
  new := by
    intro s t ch g rest ad' q b k hr hst hs ⟨c, hc⟩
    subst hc
    generalize hx : (SAct.sync (.promNew (pob c) b) k : SAct (WTask α) (WFrame φ)) = x at hs
    have inj : ∀ {c c'}, pob c = pob c' → c = c' := by intro c c' h; unfold pob at h; omega
    cases when_wc hs with
    | usr g u a hU =>
      clear hs
      cases a <;> simp only [liftW, SAct.sync.injEq, reduceCtorEq] at hx
      rename_i a _
      cases a <;> simp only [mapS, SApi.promNew.injEq, reduceCtorEq, false_and] at hx
      unfold pob at hx; omega
    | wh f d' a hf hW =>
      clear hs
      cases hW <;> first | (cases hx; done) | skip
      case wIn =>
        simp only [SAct.sync.injEq, SApi.promNew.injEq] at hx
        have := inj hx.1.1
        subst this
        exact ⟨fun h => Nat.lt_irrefl _ (h _ rfl), fun c' h => by rw [← inj h]; exact Nat.lt_succ_self _⟩
      case wInT =>
        simp only [SAct.sync.injEq, SApi.promNew.injEq] at hx
        have := inj hx.1.1
        subst this
        exact ⟨fun h => Nat.lt_irrefl _ (h _ rfl), fun c' h => by rw [← inj h]; exact Nat.lt_succ_self _⟩
      case wIn0 =>
        simp only [SAct.sync.injEq, SApi.promNew.injEq] at hx
        have := inj hx.1.1
        subst this
        exact ⟨fun h => Nat.lt_irrefl _ (h _ rfl), fun c' h => by rw [← inj h]; exact Nat.lt_succ_self _⟩
      all_goals (rename_i ha; rcases ha with ⟨-, rfl⟩ | rfl <;> cases hx)

theorem home_one (h : WR U u0 f0 s) {c p p' : Nat} (h1 : homeOk s.data.sd c p) (h2 : homeOk s.data.sd c p') : p = p' :=
  ((an U u0 f0).ok h (q0 := pob c) ⟨c, rfl⟩).uniq p p' h1 h2

/-- The frame that waits for set_value in make_ready_future. -/
def as (U : WApp α φ δ χ) (u0 : δ) (f0 : φ) : AS (whenApp U) { u := u0 } (.usr f0) where
  E
    | .mkG c => some (pob c)
    | .aSet c _ => some (pob c)
    | .kSet c _ => some (pob c)
    | .kAll c _ => some (pob c)
    | _ => none
  e0 := rfl
  run a := by cases a <;> exact ⟨rfl, rfl⟩
  throw {f e f'} h := by
    rcases when_throw h with ⟨g, g', -, rfl⟩ | h
    · rfl
    · cases f <;> simp only [wthrow, Option.some.injEq, reduceCtorEq] at h <;> subst h <;> rfl
  code := by
    intro v ad f rv ch ad' a k hs
    generalize hx : (SAct.core a k : SAct (WTask α) (WFrame φ)) = x at hs
    cases when_wc hs with
    | usr g u wa hU =>
      clear hs
      cases wa <;> simp only [liftW, SAct.core.injEq, reduceCtorEq] at hx
      obtain ⟨rfl, -⟩ := hx
      exact mapW_ok (fun _ _ => rfl) (fun _ => trivial) _
    | wh f d' a' hf hW =>
      cases hW <;> first | (cases hx; done) | skip
      all_goals (rename_i ha; rcases ha with ⟨-, rfl⟩ | rfl <;> cases hx)
  goto := by
    intro v ad f rv ch ad' g hs
    generalize hx : (SAct.goto g : SAct (WTask α) (WFrame φ)) = x at hs
    cases when_wc hs with
    | usr g u wa hU =>
      clear hs
      cases wa <;> simp only [liftW, SAct.goto.injEq, reduceCtorEq] at hx
      subst hx; rfl
    | wh f d' a' hf hW =>
      cases hW <;> first | (cases hx; done) | (cases hx; rfl) | skip
      all_goals (rename_i ha; rcases ha with ⟨-, rfl⟩ | rfl <;> cases hx; rfl)
  push := by
    intro v ad f rv ch ad' g k hs
    generalize hx : (SAct.push g k : SAct (WTask α) (WFrame φ)) = x at hs
    cases when_wc hs with
    | usr g u wa hU =>
      clear hs
      cases wa <;> simp only [liftW, SAct.push.injEq, reduceCtorEq] at hx
      · obtain ⟨rfl, rfl⟩ := hx; exact ⟨rfl, rfl⟩
      · obtain ⟨rfl, rfl⟩ := hx; exact ⟨rfl, rfl⟩
    | wh f d' a' hf hW =>
      cases hW <;> first | (cases hx; done) | skip
      all_goals (rename_i ha; rcases ha with ⟨-, rfl⟩ | rfl <;> cases hx)
  core := by
    intro v ad f rv ch ad' a k hs
    generalize hx : (SAct.core a k : SAct (WTask α) (WFrame φ)) = x at hs
    cases when_wc hs with
    | usr g u wa hU =>
      clear hs
      cases wa <;> simp only [liftW, SAct.core.injEq, reduceCtorEq] at hx
      obtain ⟨-, rfl⟩ := hx; rfl
    | wh f d' a' hf hW =>
      cases hW <;> first | (cases hx; done) | skip
      all_goals (rename_i ha; rcases ha with ⟨-, rfl⟩ | rfl <;> cases hx)
  sync := by
    intro v ad f rv ch ad' a k q hs hk
    generalize hx : (SAct.sync a k : SAct (WTask α) (WFrame φ)) = x at hs
    cases when_wc hs with
    | usr g u wa hU =>
      clear hs
      cases wa <;> simp only [liftW, SAct.sync.injEq, reduceCtorEq] at hx
      obtain ⟨-, rfl⟩ := hx; cases hk
    | wh f d' a' hf hW =>
      clear hs
      cases hW <;> first | (cases hx; done) | (cases hx; cases hk; done) | (cases hx; cases hk; exact ⟨_, rfl⟩) | skip
      all_goals (rename_i ha; rcases ha with ⟨-, rfl⟩ | rfl <;> cases hx <;> cases hk)
  obj := by
    intro s k q p hr hk ho
    obtain ⟨h1, h2, h3⟩ := obj_ok hr q p ho
    cases k <;> simp only [Option.some.injEq, reduceCtorEq] at hk <;> subst hk <;> exact ⟨h1, (h3 _).2 rfl, h2⟩

theorem mkG_ok (h : WR U u0 f0 s) {t c : Nat} {rest : List (Fr (WTask α) (WFrame φ))}
    (hst : s.stk t = .client (.app (.mkG c)) :: rest) (he : (s.thr t).exc = none) : ∃ p, rdy s.data.sd p ∧ homeOk s.data.sd c p := by
  obtain ⟨p, h1, h2⟩ := ((as U u0 f0).ok h).top t _ rest _ hst he rfl
  exact ⟨p, h1.1, h2⟩

/-- The set_value of this frame has returned: the state has a value. -/
theorem set_ok (h : WR U u0 f0 s) {t c : Nat} {f : WFrame φ} {rest : List (Fr (WTask α) (WFrame φ))} (hst : s.stk t = .client (.app f) :: rest)
    (he : (s.thr t).exc = none) (hf : (as U u0 f0).E f = some (pob c)) : ∃ p, was s.data.sd p ∧ homeOk s.data.sd c p :=
  ((as U u0 f0).ok h).top t _ rest _ hst he hf

end
end When
end Itc
